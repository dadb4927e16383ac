/- Cases that meet the hypotheses of the theorems C144. -/
import Verif.Props.RoundPoly3Frame
import Verif.Cases.ShapeMoves

namespace WFMath.Cases
open WFMath Spec Matrix Rounding
open scoped Quaternion

/-- A third of a turn about the diagonal: it takes each axis to the next one. -/
def thirdTurn : Matrix (Fin 3) (Fin 3) ℝ := !![0, 1, 0; 0, 0, 1; 1, 0, 0]

theorem thirdTurn_orth : thirdTurnᵀ * thirdTurn = 1 := by
  ext i j
  fin_cases i <;> fin_cases j <;> simp [thirdTurn, mul_apply, Fin.sum_univ_three, one_apply]

theorem stands_self (M : Matrix (Fin 3) (Fin 3) ℝ) {δ : ℝ} (h : 0 ≤ δ) : Stands M M δ := fun v => by
  rw [sub_self, len_zero]; exact mul_nonneg h (len_nonneg _)

theorem triangle_basis (r : Rounding 53) : NearBasis threeCorners.orient (2 ^ (-22 : ℤ)) := (C144_built r (by norm_num) epsilon le_rfl _ _ _ (Fl.threeCorners_built r)).1

example (r : Rounding 53) := C144_built r (by norm_num) epsilon le_rfl _ _ _ (Fl.threeCorners_built r)
example (r : Rounding 53) (x : ℝ) := C144_shift r threeCorners _ (by norm_num) (triangle_basis r) ⟨![x, 1 / 3, 7], true⟩ rfl
example (r : Rounding 53) := (C144_move_corner r threeCorners _ (by norm_num) (triangle_basis r) ⟨![5, 1 / 3, 7], true⟩ 1).2 _ (C144_false r).1 rfl rfl
example (r : Rounding 53) := (C144_rotate_corner r ⟨thirdTurn, false, true, 1⟩ thirdTurn (2 ^ (-40 : ℤ)) (by norm_num) thirdTurn_orth (by norm_num) (by norm_num)
  (stands_self _ (by norm_num)) rfl threeCorners _ (by norm_num) (triangle_basis r) 2).2 _ _ rfl (C144_false r).2.1
example (r : Rounding 53) := C144_rotate r ⟨thirdTurn, false, true, 1⟩ thirdTurn (2 ^ (-40 : ℤ)) (by norm_num) thirdTurn_orth (by norm_num) (by norm_num)
  (stands_self _ (by norm_num)) rfl threeCorners _ (by norm_num) (triangle_basis r) ⟨![1 / 3, 2, 0], true⟩ rfl
example (r : Rounding 53) := C144_frames r ⟨thirdTurn, false, true, 1⟩ thirdTurn (2 ^ (-40 : ℤ)) (by norm_num) thirdTurn_orth (by norm_num) (by norm_num)
  (stands_self _ (by norm_num)) rfl threeCorners _ (by norm_num) (triangle_basis r) ⟨![1 / 3, 2, 0], true⟩ rfl
example (r : Rounding 53) := C144_box_frames r threeCorners _ (by norm_num) (triangle_basis r) ⟨⟨![1, 2, 3], true⟩, ⟨![2, 3, 4], true⟩⟩ rfl

/-- The corners of the triangle, read. -/
theorem triangle_read (r : Rounding 53) (i : Nat) (c : Pt 3) (h : ([⟨0, true⟩, ⟨![1, 0, 0], true⟩, ⟨![0, 1, 0], true⟩] : List (Pt 3))[i]? = some c) :
    Fl.polyCorner r threeCorners i = some c := by
  match i with
  | 0 =>
    simp only [List.getElem?_cons_zero, Option.some.injEq] at h
    obtain ⟨c', h1, h2, h3⟩ := C140_first r (by norm_num) epsilon epsilon_pos.le _ _ _ (Fl.threeCorners_built r) (fun _ => IsFl.zero) 0 ⟨0, true⟩ rfl rfl
    rw [h1, ← h]
    congr 1
    ext1
    · exact h3
    · exact h2
  | 1 => simp only [List.getElem?_cons_zero, List.getElem?_cons_succ, Option.some.injEq] at h; rw [← h]; exact (C144_false r).1
  | 2 => simp only [List.getElem?_cons_zero, List.getElem?_cons_succ, Option.some.injEq] at h; rw [← h]; exact (C144_false r).2.1
  | k + 3 => simp at h

/-- The centre of the triangle can be read, and the triangle can be moved and turned with it. -/
example (r : Rounding 53) : ∃ g t t', Fl.polyCenter r threeCorners = some g ∧ g.valid = true ∧
    Fl.poly3MoveCenter r threeCorners ⟨![1 / 3, 2, 0], true⟩ = some t ∧ Fl.poly3RotateCenter r threeCorners ⟨thirdTurn, false, true, 1⟩ = some t' := by
  obtain ⟨g, h1, h2, -⟩ := C144_center r threeCorners _ (by norm_num) (triangle_basis r) [⟨0, true⟩, ⟨![1, 0, 0], true⟩, ⟨![0, 1, 0], true⟩] (by simp) (by norm_num) rfl
    (triangle_read r)
  have hg := h2.2 (by simp)
  obtain ⟨t, a, -⟩ := C144_move_center r threeCorners _ (by norm_num) (triangle_basis r) ⟨![1 / 3, 2, 0], true⟩ g h1 rfl hg
  obtain ⟨t', b, -⟩ := (C144_rotate_center r ⟨thirdTurn, false, true, 1⟩ thirdTurn (2 ^ (-40 : ℤ)) (by norm_num) thirdTurn_orth (by norm_num) (by norm_num)
    (stands_self _ (by norm_num)) rfl threeCorners _ (by norm_num) (triangle_basis r)).2 g (by simp [Poly.numCorners, threeCorners]) h1
  exact ⟨g, t, t', h1, hg, a, b⟩

example (r : Rounding 53) := C144_quaternion r quatB (toH quatB) 0 _ quatB_norm quatB_near (by norm_num) rfl rfl threeCorners _ (by norm_num) (triangle_basis r)
  ⟨![1 / 3, 2, 0], true⟩ rfl
example (r : Rounding 53) := C144_quaternion_corner_partial r quatB (toH quatB) 0 _ quatB_norm quatB_near (by norm_num) rfl rfl threeCorners _ (by norm_num) (triangle_basis r)
  2 _ (C144_false r).2.1 rfl

/-- The centre of the triangle is there to be turned about. -/
example (r : Rounding 53) : ∃ t, Fl.poly3RotateCenterQ r threeCorners quatB = some t := by
  obtain ⟨g, h1, -⟩ := C144_center r threeCorners _ (by norm_num) (triangle_basis r) [⟨0, true⟩, ⟨![1, 0, 0], true⟩, ⟨![0, 1, 0], true⟩] (by simp) (by norm_num) rfl
    (triangle_read r)
  obtain ⟨t, h, -⟩ := (C144_quaternion_center_partial r quatB (toH quatB) 0 _ quatB_norm quatB_near (by norm_num) rfl rfl threeCorners _ (by norm_num) (triangle_basis r)).2
    g (by simp [Poly.numCorners, threeCorners]) h1 rfl
  exact ⟨t, h⟩
example (r : Rounding 53) := C144_rotbox_frames r ⟨⟨![1 / 3, 2, 0], true⟩, ⟨![1, 1, 1], true⟩, ⟨thirdTurn, false, true, 1⟩⟩ thirdTurn (2 ^ (-40 : ℤ)) (by norm_num) thirdTurn_orth
  (by norm_num) (by norm_num) (stands_self _ (by norm_num)) rfl threeCorners _ (by norm_num) (triangle_basis r) rfl
example (r : Rounding 53) := C144_quaternion_frames_partial r quatB (toH quatB) 0 _ quatB_norm quatB_near (by norm_num) rfl rfl threeCorners _ (by norm_num) (triangle_basis r)
  ⟨![1 / 3, 2, 0], true⟩ rfl 2 _ _ rfl (C144_false r).2.1
example (r : Rounding 53) := C141_quaternion_coords r quatB (toH quatB) 0 _ quatB_norm quatB_near (by norm_num) rfl ⟨![1 / 3, 2, 0], true⟩ ⟨⟨![1, 2, 3], true⟩, ⟨![4, 5, 6], true⟩⟩ 1

end WFMath.Cases
