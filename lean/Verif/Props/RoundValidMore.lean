/- C132, continued: rotated boxes and rotations that are built in floating point. -/
import Verif.Props.RoundValid
import Verif.Props.RoundRBoxTwo

namespace WFMath
open Spec
variable {n : Nat}

/-- C132, rotated boxes. -/
theorem C132_rotated_boxes (r : Rounding 53) (b : RBox n) (m : RotMat n) (p : Pt n) :
    ((Fl.rbCenter r b).valid = true ↔ b.corner.valid = true ∧ b.size.valid = true ∧ b.orient.valid = true) ∧
    (∀ i, 0 < i → i < 2 ^ n → ∃ q, Fl.rbCorner r b i = some q ∧ (q.valid = true ↔ b.corner.valid = true ∧ b.size.valid = true ∧ b.orient.valid = true)) ∧
    ((Fl.rbBox r b).valid = true ↔ b.corner.valid = true ∧ b.size.valid = true ∧ b.orient.valid = true) ∧
    ((Fl.rbSphere r b).valid = true ↔ b.corner.valid = true ∧ b.size.valid = true ∧ b.orient.valid = true) ∧
    ((Fl.rbUnrotate r b p).valid = true ↔ b.corner.valid = true ∧ b.orient.valid = true ∧ p.valid = true) ∧
    ((Fl.rbRotate r b m p).corner.valid = true ↔ b.corner.valid = true ∧ m.valid = true ∧ p.valid = true) ∧ (Fl.rbRotate r b m p).size = b.size ∧
    ((Fl.rbRotate r b m p).orient.valid = true ↔ b.orient.valid = true ∧ m.valid = true) ∧ ((Fl.rbRotate r b m p).orient.flip = true ↔ (b.orient.flip = true ↔ m.flip = false)) ∧
    (Fl.rbRotate r b m p).orient.age = b.orient.age + m.age := by
  have hc : (Fl.rbCenter r b).valid = true ↔ b.corner.valid = true ∧ b.size.valid = true ∧ b.orient.valid = true := by
    simp [Fl.rbCenter, Fl.addVec, Fl.vecMat, Fl.divBy]; tauto
  refine ⟨hc, fun i hi hn => ?_, ?_, ?_, ?_, ?_, rfl, ?_, ?_, rfl⟩
  · refine ⟨_, by unfold Fl.rbCorner; rw [if_pos hn, if_neg hi.ne'], ?_⟩
    simp [Fl.addVec, Fl.vecMat]; tauto
  · simp [Fl.rbBox, Box.valid, RBox.valid]; tauto
  · have hd : ¬ r (Fl.mag r b.size / 2) < 0 := not_lt.2 (r.nonneg (by have := r.nonneg (Real.sqrt_nonneg (Fl.sqrMag r b.size)); unfold Fl.mag; linarith))
    rw [← hc]
    simp only [Fl.rbSphere, Ball.mk', Ball.valid]
    rw [if_neg hd]
  · simp [Fl.rbUnrotate, Fl.addVec, Fl.matVec, Fl.ptSub]; tauto
  · simp [Fl.rbRotate, Fl.ptRotate, Fl.addVec, Fl.vecMat, Fl.ptSub]; tauto
  · simp [Fl.rbRotate, Fl.prod]
  · simp only [Fl.rbRotate, Fl.prod]; cases b.orient.flip <;> cases m.flip <;> simp

/-- C132, rotations that are built: they are valid, not mirrors and of age 1, unless the axis is not one. -/
theorem C132_built (r : Rounding 53) (T : Trig) (i j : Fin n) (q p : Quat) (axis : ℤ) (v : Vec 3) (theta : ℝ) (m : RotMat 3) :
    (i ≠ j → ∃ c, Fl.rotation (n := n) T i j theta = some c ∧ c.valid = true ∧ c.flip = false ∧ c.age = 1) ∧ Fl.rotation (n := n) T i i theta = none ∧
    ((Fl.qRotationIdx r T q axis theta).valid = true ↔ 0 ≤ axis ∧ axis ≤ 2) ∧ (0 ≤ axis → axis ≤ 2 → (Fl.qRotationIdx r T q axis theta).age = 1) ∧
    ((Fl.qRotationAxis r T q v theta).valid = true ↔ v.valid = true ∧ epsilon ≤ Fl.mag r v) ∧ (epsilon ≤ Fl.mag r v → (Fl.qRotationAxis r T q v theta).age = 1) ∧
    ((Fl.qRotationMag r T q v).valid = true ↔ v.valid = true ∧ epsilon ≤ Fl.mag r v) ∧ (epsilon ≤ Fl.mag r v → (Fl.qRotationMag r T q v).age = 1) ∧
    ((Fl.fromQuaternion r q).valid = true ∧ (Fl.fromQuaternion r q).flip = false ∧ (Fl.fromQuaternion r q).age = q.age) ∧
    ((Fl.matRotateQ r m q).valid = true ↔ m.valid = true ∧ q.valid = true) ∧ (Fl.matRotateQ r m q).flip = m.flip ∧ (Fl.matRotateQ r m q).age = m.age + q.age := by
  refine ⟨fun h => ⟨_, if_neg h, rfl, rfl, rfl⟩, if_pos rfl, ?_, fun h1 h2 => ?_, ?_, fun h => ?_, ?_, fun h => ?_, ⟨rfl, rfl, rfl⟩, by simp [Fl.matRotateQ], rfl, rfl⟩
  · unfold Fl.qRotationIdx
    split_ifs with h
    · simp; omega
    · simp; omega
  · unfold Fl.qRotationIdx; rw [if_neg (by omega)]
  · simp only [Fl.qRotationAxis]
    split_ifs with h
    · simp; intro _; exact h
    · simp [not_lt.1 h]
  · simp only [Fl.qRotationAxis]; rw [if_neg (not_lt.2 h)]
  · simp only [Fl.qRotationMag]
    split_ifs with h
    · simp; intro _; exact h
    · simp [not_lt.1 h]
  · simp only [Fl.qRotationMag]; rw [if_neg (not_lt.2 h)]

/-- A corner of a box of the plane, and an axis that is not one. -/
example (r : Rounding 53) (T : Trig) : (∃ q, Fl.rbCorner r (⟨⟨![1, 2], true⟩, ⟨![3, 4], true⟩, RotMat.identity⟩ : RBox 2) 3 = some q ∧ q.valid = true) ∧
    (Fl.qRotationIdx r T ⟨1, ⟨0, true⟩, true, 1⟩ 3 1).valid = false := by
  constructor
  · obtain ⟨q, h1, h2⟩ := (C132_rotated_boxes r (⟨⟨![1, 2], true⟩, ⟨![3, 4], true⟩, RotMat.identity⟩ : RBox 2) RotMat.identity Pt.origin).2.1 3 (by norm_num) (by norm_num)
    exact ⟨q, h1, h2.2 ⟨rfl, rfl, rfl⟩⟩
  · have := (C132_built r T (0 : Fin 2) 1 ⟨1, ⟨0, true⟩, true, 1⟩ ⟨1, ⟨0, true⟩, true, 1⟩ 3 ⟨0, true⟩ 1 RotMat.identity).2.2.1
    rw [← Bool.not_eq_true]; intro h; exact absurd (this.1 h).2 (by norm_num)

end WFMath
