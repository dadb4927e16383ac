/- Property theorems C139: reflections, rotations in the plane of two vectors and rotations from one direction to another in floating point arithmetic. -/
import Verif.Lemmas.RoundDir
import Verif.Props.RotMatrix

namespace WFMath
open Spec Matrix Gauss
open WFMath.Spec.Rounding (u u_pos)
variable {n : Nat}

/-- C139: `mirror(v)` in doubles is the reflection in the hyperplane orthogonal to `v`, up to `2^-46` of every length, for every vector that is not zero. -/
theorem C139_mirror (r : Rounding 53) (hn : n ≤ 3) (v : Vec n) (hv : v.elem ≠ 0) :
    ∃ m R, Fl.mirrorDir r v = some m ∧ R * Rᵀ = 1 ∧ R.det = -1 ∧ v.elem ᵥ* R = -v.elem ∧ (∀ x : Fin n → ℝ, x ⬝ᵥ v.elem = 0 → x ᵥ* R = x) ∧
      Stands m.elem R (2 ^ (-46 : ℤ)) ∧ m.flip = true ∧ m.valid = true ∧ m.age = 1 := by
  have hu0 : 0 < u 53 := u_pos
  have hu : u 53 ≤ 1 / 1000000 := by rw [Fl.u53]; norm_num
  have hs : 0 < Fl.sqrMag r v := (Fl.sqrMag_close r v).pos Fl.pos53 (Vec.sqrMag_pos.2 hv)
  obtain ⟨M, hM⟩ := Option.isSome_iff_exists.1 ((C44_direction_defined v).2 hv)
  obtain ⟨hr, hf, -, -, h1, h2⟩ := C44_direction v M hM
  obtain ⟨-, he, -, -⟩ := mirrorDir_eq hM
  refine ⟨_, M.elem, by rw [Fl.mirrorDir, if_neg (not_not.2 hs)], hr.orth, ?_, h1, h2, ?_, rfl, rfl, rfl⟩
  · rw [he]; exact det_reflection _ (RotMat.unit_self hv)
  · have key : ∀ i j, |(Matrix.of fun i j =>
        if i = j then r (1 - r (r (r (2 * v.elem i) * v.elem i) / Fl.sqrMag r v))
        else if i < j then r (r (r (-2 * v.elem i) * v.elem j) / Fl.sqrMag r v)
        else r (r (r (-2 * v.elem j) * v.elem i) / Fl.sqrMag r v)) i j - M.elem i j| ≤ 32 * u 53 := fun i j => by
      have hk : ((n + 4 : Nat) : ℝ) ≤ 7 := by have : (n : ℝ) ≤ 3 := by exact_mod_cast hn
                                              push_cast; linarith
      have big : n + 4 ≤ 2 ^ 52 := by norm_num; omega
      have bound : ∀ (c : ℝ) (k l : Fin n), |c| ≤ 2 → |r (r (r (c * v.elem k) * v.elem l) / Fl.sqrMag r v) - c * (RotMat.unit v k * RotMat.unit v l)| ≤ 28 * u 53 := fun c k l hc => by
        refine (Fl.Close_u (Fl.mirror_close r v c k l) big).trans ?_
        have h3 : |c * (RotMat.unit v k * RotMat.unit v l)| ≤ 2 := by
          rw [abs_mul]
          nlinarith [Fl.unit_prod_le v v k l, abs_nonneg (RotMat.unit v k * RotMat.unit v l), abs_nonneg c]
        have h4 : 2 * ((n + 4 : Nat) : ℝ) * u 53 ≤ 14 * u 53 := by nlinarith
        calc _ ≤ 14 * u 53 * 2 := mul_le_mul h4 h3 (abs_nonneg _) (by positivity)
          _ = _ := by ring
      rw [he, Matrix.of_apply, Matrix.sub_apply, Matrix.smul_apply, Matrix.one_apply, vecMulVec_apply, smul_eq_mul]
      by_cases hij : i = j
      · subst hij
        simp only [if_true]
        have b := bound 2 i i (by norm_num)
        have h5 : |1 - r (r (r (2 * v.elem i) * v.elem i) / Fl.sqrMag r v) - (1 - 2 * (RotMat.unit v i * RotMat.unit v i))| ≤ 28 * u 53 := by
          rw [sub_sub_sub_cancel_left, abs_sub_comm]; exact b
        have h6 := Fl.unit_prod_le v v i i
        refine (Fl.rnd_err r h5 (B := 4) ?_).trans (by linarith)
        have h7 := abs_sub_abs_le_abs_sub (1 - r (r (r (2 * v.elem i) * v.elem i) / Fl.sqrMag r v)) (1 - 2 * (RotMat.unit v i * RotMat.unit v i))
        have h8 : |1 - 2 * (RotMat.unit v i * RotMat.unit v i)| ≤ 3 := by
          rw [_root_.abs_le] at h6 ⊢; constructor <;> linarith
        linarith
      · simp only [if_neg hij, zero_sub]
        split_ifs
        · have b := bound (-2) i j (by norm_num)
          rw [show -(2 * (RotMat.unit v i * RotMat.unit v j)) = -2 * (RotMat.unit v i * RotMat.unit v j) by ring]
          linarith
        · have b := bound (-2) j i (by norm_num)
          rw [show -(2 * (RotMat.unit v i * RotMat.unit v j)) = -2 * (RotMat.unit v j * RotMat.unit v i) by ring]
          linarith
    have hst := Fl.stands_of_entries (by positivity) key
    intro x
    refine (hst x).trans (mul_le_mul_of_nonneg_right ?_ (len_nonneg x))
    have hn' : (n : ℝ) ≤ 3 := by exact_mod_cast hn
    have e : (2 : ℝ) ^ (-46 : ℤ) = 128 * u 53 := by rw [Fl.u53]; norm_num
    rw [e]
    nlinarith

example (r : Rounding 53) : ∃ m R, Fl.mirrorDir r (⟨![1, 2, 2], true⟩ : Vec 3) = some m ∧ R * Rᵀ = 1 ∧ R.det = -1 ∧ Stands m.elem R (2 ^ (-46 : ℤ)) := by
  obtain ⟨m, R, h1, h2, h3, -, -, h4, -⟩ := C139_mirror r le_rfl (⟨![1, 2, 2], true⟩ : Vec 3) (fun h => by have := congrFun h 0; simp at this)
  exact ⟨m, R, h1, h2, h3, h4⟩

end WFMath
