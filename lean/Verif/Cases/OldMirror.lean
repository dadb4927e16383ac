/- A case that meets the hypotheses of C131_old_partial. -/
import Verif.Props.RoundConvertOld

namespace WFMath.Cases
open Spec Matrix Gauss
open scoped Quaternion

/-- The mirror of the first axis, inverted twenty times so that it counts as old. -/
noncomputable def oldMirror : RotMat 3 := RotMat.inverse^[20] (RotMat.mirrorAxis 0)

theorem oldMirror_eq : oldMirror = ⟨diagonal ![-1, 1, 1], true, true, 20⟩ := by
  have h : ∀ k, RotMat.inverse ⟨diagonal ![-1, 1, 1], true, true, k⟩ = (⟨diagonal ![-1, 1, 1], true, true, k + 1⟩ : RotMat 3) := fun k => by
    unfold RotMat.inverse
    congr 1
    ext i j; fin_cases i <;> fin_cases j <;> simp
  have h0 : RotMat.mirrorAxis (0 : Fin 3) = ⟨diagonal ![-1, 1, 1], true, true, 0⟩ := by
    unfold RotMat.mirrorAxis
    congr 1
    ext i j; fin_cases i <;> fin_cases j <;> simp
  unfold oldMirror
  rw [h0]
  simp only [Function.iterate_succ, Function.iterate_zero, Function.comp, id, h]

/-- It is turned into 1 or -1. -/
example (r : Rounding 53) : ∃ q, Fl.fromRotMatrixFull r doubleLimits oldMirror = some (q, false) ∧ (‖toH q - 1‖ ≤ 2 ^ (-40 : ℤ) ∨ ‖toH q + 1‖ ≤ 2 ^ (-40 : ℤ)) := by
  rw [oldMirror_eq]
  obtain ⟨q, h1, h2, -⟩ := C131_old_partial r ⟨diagonal ![-1, 1, 1], true, true, 20⟩ 1 1 0 1 (by simp) (fun v => by rw [Matrix.one_mulVec]; ext i; fin_cases i <;> simp [act, vecOf])
    (fun i j => by fin_cases i <;> fin_cases j <;> first | (simp; exact IsFl.zero) | (simp; exact IsFl.one Fl.pos53) | (simp; exact (IsFl.one Fl.pos53).neg))
    rfl rfl le_rfl (fun v => by simp [len_zero]) (by norm_num) le_rfl (by norm_num) (by simp) (by simp) (by norm_num)
  exact ⟨q, h1, by simpa using h2⟩

end WFMath.Cases
