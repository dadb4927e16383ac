/- C132: validity flags, parities and ages in floating point. -/
import Verif.Props.RoundConvert
import Verif.Props.RoundSphere

namespace WFMath
open Spec
variable {n : Nat}

/-- C132, vectors: the result of an operation is valid exactly when its operands are, whatever the rounding does to the components. -/
theorem C132_vectors (r : Rounding 53) (T : Trig) (u v : Vec n) (d norm : ℝ) (a b : Vec 3) (q : Quat) (m : RotMat n) :
    ((Fl.add r u v).valid = true ↔ u.valid = true ∧ v.valid = true) ∧ ((Fl.sub r u v).valid = true ↔ u.valid = true ∧ v.valid = true) ∧
    ((Fl.scale r v d).valid = true ↔ v.valid = true) ∧ ((Fl.divBy r v d).valid = true ↔ v.valid = true) ∧
    ((Fl.normalize r v norm).valid = true ↔ v.valid = true) ∧ ((Fl.cross3 r a b).valid = true ↔ a.valid = true ∧ b.valid = true) ∧
    ((Fl.rotateQ r a q).valid = true ↔ a.valid = true ∧ q.vec.valid = true) ∧ ((Fl.matVec r m v).valid = true ↔ m.valid = true ∧ v.valid = true) ∧
    ((Fl.vecMat r m v).valid = true ↔ m.valid = true ∧ v.valid = true) ∧
    ∀ i j : Fin n, i ≠ j → ∃ w, Fl.vecRotate r T v i j d = some w ∧ (w.valid = true ↔ v.valid = true) := by
  refine ⟨by simp [Fl.add], by simp [Fl.sub], Iff.rfl, Iff.rfl, Iff.rfl, by simp [Fl.cross3], ?_, by simp [Fl.matVec], by simp [Fl.vecMat], fun i j hij => ?_⟩
  · simp [Fl.rotateQ, Fl.add, Fl.scale, Fl.cross3]; tauto
  · unfold Fl.vecRotate; rw [if_neg hij]; exact ⟨_, rfl, Iff.rfl⟩

/-- C132, points. -/
theorem C132_points (r : Rounding 53) (p x o : Pt n) (v : Vec n) (d : ℝ) (m : RotMat n) (p3 x3 o3 : Pt 3) (q : Quat) :
    ((Fl.ptSub r p x).valid = true ↔ p.valid = true ∧ x.valid = true) ∧ ((Fl.addVec r p v).valid = true ↔ p.valid = true ∧ v.valid = true) ∧
    ((Fl.subVec r p v).valid = true ↔ p.valid = true ∧ v.valid = true) ∧ ((Fl.midpoint r p x d).valid = true ↔ p.valid = true ∧ x.valid = true) ∧
    ((Fl.ptRotate r x m p).valid = true ↔ x.valid = true ∧ m.valid = true ∧ p.valid = true) ∧
    ((Fl.toParent r x o m).valid = true ↔ x.valid = true ∧ o.valid = true ∧ m.valid = true) ∧
    ((Fl.toLocal r x o m).valid = true ↔ x.valid = true ∧ o.valid = true ∧ m.valid = true) ∧
    ((Fl.ptRotateQ r x3 q p3).valid = true ↔ x3.valid = true ∧ q.vec.valid = true ∧ p3.valid = true) ∧
    ((Fl.toParentQ r x3 o3 q).valid = true ↔ x3.valid = true ∧ o3.valid = true ∧ q.vec.valid = true) ∧
    ((Fl.toLocalQ r x3 o3 q).valid = true ↔ x3.valid = true ∧ o3.valid = true ∧ q.vec.valid = true) := by
  have hp : ∀ a b : Pt 3, (Fl.ptSub r a b).valid = (a.valid && b.valid) := fun _ _ => rfl
  have hR : ∀ (a : Vec 3) (q : Quat), (Fl.rotateQ r a q).valid = (a.valid && q.vec.valid) := fun a q => by
    simp [Fl.rotateQ, Fl.add, Fl.scale, Fl.cross3]
    cases a.valid <;> cases q.vec.valid <;> simp
  have hO : (Pt.origin : Pt n).valid = true := rfl
  have hO3 : (Pt.origin : Pt 3).valid = true := rfl
  refine ⟨by simp [Fl.ptSub], by simp [Fl.addVec], by simp [Fl.subVec], by simp [Fl.midpoint], ?_, ?_, ?_, ?_, ?_, ?_⟩
  · simp [Fl.ptRotate, Fl.addVec, Fl.vecMat, Fl.ptSub]; tauto
  · simp [Fl.toParent, Fl.addVec, Fl.vecMat, Fl.ptSub, hO]; tauto
  · simp [Fl.toLocal, Fl.addVec, Fl.matVec, Fl.ptSub, hO]; tauto
  · simp [Fl.ptRotateQ, Fl.addVec, hR, hp]; tauto
  · simp [Fl.toParentQ, Fl.addVec, hR, hp, hO3]; tauto
  · have hI : q.inverse.vec.valid = q.vec.valid := rfl
    simp [Fl.toLocalQ, Fl.addVec, hR, hp, hO3, hI]; tauto

/-- C132, shapes. -/
theorem C132_shapes (r : Rounding 53) (b : Box n) (v : Vec n) (c : Ball n) (s : Seg n) :
    ((Fl.boxCenter r b).valid = true ↔ b.low.valid = true ∧ b.high.valid = true) ∧
    ((Fl.boxShift r b v).valid = true ↔ b.low.valid = true ∧ b.high.valid = true ∧ v.valid = true) ∧
    ((Fl.ballBox r c).valid = true ↔ c.valid = true) ∧ ((Fl.boxSphere r b).valid = true ↔ b.low.valid = true ∧ b.high.valid = true) ∧
    ((Fl.segSphere r s).valid = true ↔ s.p1.valid = true ∧ s.p2.valid = true) := by
  refine ⟨by simp [Fl.boxCenter, Fl.midpoint], ?_, by simp [Fl.ballBox, Box.valid, Ball.valid], ?_, ?_⟩
  · simp [Fl.boxShift, Box.valid, Fl.addVec]; tauto
  · have hd : ¬ r (Fl.dist r b.low b.high / 2) < 0 := not_lt.2 (r.nonneg (by have := r.nonneg (Real.sqrt_nonneg (Fl.sqDist r b.low b.high)); unfold Fl.dist; linarith))
    simp only [Fl.boxSphere, Ball.mk', Ball.valid]
    rw [if_neg hd]
    simp [Fl.boxCenter, Fl.midpoint]
  · have hd : ¬ r (Fl.dist r s.p1 s.p2 / 2) < 0 := not_lt.2 (r.nonneg (by have := r.nonneg (Real.sqrt_nonneg (Fl.sqDist r s.p1 s.p2)); unfold Fl.dist; linarith))
    simp only [Fl.segSphere, Ball.mk', Ball.valid]
    rw [if_neg hd]
    simp [Fl.midpoint]

/-- C132, quaternions and rotation matrices: validity, parity (is it a mirror?) and age. The age of a product is the sum of the ages, until a quaternion is renormalised at 20. -/
theorem C132_rotations (r : Rounding 53) (p q : Quat) (w x y z : ℝ) (a b : RotMat n) (m : RotMat 3) :
    ((Fl.qMul r p q).valid = true ↔ p.valid = true ∧ q.valid = true) ∧ ((Fl.qDiv r p q).valid = true ↔ p.valid = true ∧ q.valid = true) ∧
    (p.age + q.age < 20 → (Fl.qMul r p q).age = p.age + q.age ∧ (Fl.qDiv r p q).age = p.age + q.age) ∧
    (p.valid = true → q.valid = true → 20 ≤ p.age + q.age → (Fl.qMul r p q).age = 1 ∧ (Fl.qDiv r p q).age = 1) ∧
    ((Fl.qNormalize r p).valid = p.valid ∧ (Fl.qNormalize r p).age = 1) ∧ ((Fl.qOfComponents r w x y z).valid = true ∧ (Fl.qOfComponents r w x y z).age = 1) ∧
    (∀ f ∈ [Fl.prod r, Fl.prodInv r, Fl.invProd r, Fl.invProdInv r], ((f a b).valid = true ↔ a.valid = true ∧ b.valid = true) ∧
      ((f a b).flip = true ↔ (a.flip = true ↔ b.flip = false)) ∧ (f a b).age = a.age + b.age) ∧
    ∀ c, Fl.fromRotMatrix r m = some c → c.1.valid = m.valid ∧ c.1.vec.valid = m.valid ∧ c.1.age = m.age ∧ c.2 = !m.flip := by
  have hv : (Fl.qPrepare r p q).valid = (p.valid && q.valid) := by unfold Fl.qPrepare; split_ifs <;> rfl
  refine ⟨?_, ?_, fun h => ?_, fun h1 h2 h3 => ?_, ⟨rfl, rfl⟩, ⟨rfl, rfl⟩, ?_, fun c hc => ?_⟩
  · show (Fl.qPrepare r p q).valid = true ↔ _; rw [hv]; simp
  · show (Fl.qPrepare r p q).valid = true ↔ _; rw [hv]; simp
  · have : (Fl.qPrepare r p q).age = p.age + q.age := by
      unfold Fl.qPrepare; rw [if_neg (by unfold maxNormAge; omega)]
    exact ⟨this, this⟩
  · have : (Fl.qPrepare r p q).age = 1 := by
      unfold Fl.qPrepare; rw [if_pos ⟨by unfold maxNormAge; omega, by rw [h1, h2]; rfl⟩]; rfl
    exact ⟨this, this⟩
  · intro f hf
    simp only [List.mem_cons, List.not_mem_nil, or_false] at hf
    rcases hf with rfl | rfl | rfl | rfl <;> refine ⟨by simp [Fl.prod, Fl.prodInv, Fl.invProd, Fl.invProdInv], ?_, rfl⟩ <;>
      simp only [Fl.prod, Fl.prodInv, Fl.invProd, Fl.invProdInv] <;> cases a.flip <;> cases b.flip <;> simp
  · unfold Fl.fromRotMatrix at hc
    simp only at hc
    split_ifs at hc
    all_goals
      cases hc
      exact ⟨rfl, rfl, rfl, rfl⟩

/-- Both cases of the ages, and an invalid operand. -/
example (r : Rounding 53) : (Fl.qMul r ⟨1, ⟨0, true⟩, true, 10⟩ ⟨1, ⟨0, true⟩, true, 9⟩).age = 19 ∧ (Fl.qMul r ⟨1, ⟨0, true⟩, true, 10⟩ ⟨1, ⟨0, true⟩, true, 10⟩).age = 1 ∧
    (Fl.ptSub r (⟨![1, 2], true⟩ : Pt 2) ⟨![3, 4], false⟩).valid = false := by
  refine ⟨((C132_rotations r _ _ 1 1 1 1 (RotMat.identity (n := 2)) RotMat.identity RotMat.identity).2.2.1 (by norm_num)).1,
    ((C132_rotations r _ _ 1 1 1 1 (RotMat.identity (n := 2)) RotMat.identity RotMat.identity).2.2.2.1 rfl rfl (by norm_num)).1, rfl⟩

end WFMath
