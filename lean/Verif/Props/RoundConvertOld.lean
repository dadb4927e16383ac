/- Property theorems C131, continued: mirrors whose age calls for renormalisation, turned into quaternions. -/
import Verif.Props.RoundConvert
import Verif.Props.RoundNorm

namespace WFMath
open Spec Matrix Gauss
open scoped Quaternion

/-- C131, `Quaternion::fromRotMatrix` with the renormalisation inside `Prod`: for rotations, and for mirrors that are not old or not valid, it is what `C131_convert_partial` speaks of. -/
theorem C131_young (r : Rounding 53) (m : RotMat 3) (h : m.flip = false ∨ m.age < 20 ∨ m.valid = false) :
    Fl.fromRotMatrixFull r doubleLimits m = Fl.fromRotMatrix r m := by
  unfold Fl.fromRotMatrixFull Fl.fromRotMatrix
  cases hf : m.flip
  · rfl
  · have e : Fl.prodFull r doubleLimits m (RotMat.mirrorAxis 0) = Fl.prod r m (RotMat.mirrorAxis 0) := by
      unfold Fl.prodFull Fl.checkNormalization
      rw [if_neg]
      rintro ⟨h1, h2⟩
      rcases h with h | h | h
      · rw [hf] at h; cases h
      · have : m.age + 0 ≥ 20 := h1
        omega
      · have : (m.valid && true) = true := h2
        rw [h] at this; cases this
    simp only [e]

/-- C131, `Quaternion::fromRotMatrix` of an old mirror (age 20 and more), rotations by less than 120 degrees: the mirror is taken out, the result renormalised and turned into a
quaternion, which is `u` or `-u` up to `234 η + 2⁻⁴⁰ P⁵` when the leading minors are at least `1 / P`.
Missing: the other rotations (`C131_wrong`), and matrices with smaller leading minors, whose renormalisation may go wrong (`C137_false`). -/
theorem C131_old_partial (r : Rounding 53) (m : RotMat 3) (u : ℍ[ℝ]) (R : Matrix (Fin 3) (Fin 3) ℝ) (η P : ℝ) (hu : ‖u‖ = 1) (hR : ∀ v, R *ᵥ v = act u v)
    (hfl : ∀ i j, IsFl 53 (m.elem i j)) (hf : m.flip = true) (hv : m.valid = true) (ha : 20 ≤ m.age) (hm : Stands m.elem (R * diagonal ![-1, 1, 1]) η) (hη : η ≤ 1 / 20000)
    (hP : 1 ≤ P) (hP' : P ≤ 64) (h0 : 1 / P ≤ |m.elem 0 0|) (h1 : 1 / P ≤ |m.elem 0 0 * m.elem 1 1 - m.elem 0 1 * m.elem 1 0|)
    (hw : 1 + 39 * η + 2 ^ (-43 : ℤ) * P ^ 5 < 4 * u.re ^ 2) :
    ∃ q, Fl.fromRotMatrixFull r doubleLimits m = some (q, false) ∧
      (‖toH q - u‖ ≤ 234 * η + 2 ^ (-40 : ℤ) * P ^ 5 ∨ ‖toH q + u‖ ≤ 234 * η + 2 ^ (-40 : ℤ) * P ^ 5) ∧ q.valid = true ∧ q.age = m.age := by
  obtain ⟨p, rfl, rfl⟩ := Fl.eq_quatArr hu hR
  have hm' : Stands m.elem (if m.flip then RotMat.quatArr p * diagonal ![-1, 1, 1] else RotMat.quatArr p) η := by rw [hf]; exact hm
  have E := Fl.unflip r m hfl hm'
  rw [hf] at E
  simp only [if_true] at E
  have hη0 := (abs_nonneg _).trans (E 0 0)
  set a := Fl.prod r m (RotMat.mirrorAxis 0) with ha'
  have hB := Fl.abs_entry (quatArr_so3 hu)
  have ae : a.elem = m.elem * diagonal ![-1, 1, 1] := Fl.mirror_elem r m hfl
  have afl : ∀ i j, IsFl 53 (a.elem i j) := fun i j => by
    rw [ae, Matrix.mul_diagonal]
    fin_cases j
    · simpa using (hfl i 0).neg
    · simpa using hfl i 1
    · simpa using hfl i 2
  have orth : RotMat.quatArr p * (RotMat.quatArr p)ᵀ = 1 := (quatArr_so3 hu).orth
  have near : ∀ i j, |(a.elem * a.elemᵀ - 1) i j| ≤ 7 * η := fun i j => by
    have t : ∀ k, |a.elem i k * a.elem j k - RotMat.quatArr p i k * RotMat.quatArr p j k| ≤ 7 / 3 * η := fun k => by
      have e : a.elem i k * a.elem j k - RotMat.quatArr p i k * RotMat.quatArr p j k = (a.elem i k - RotMat.quatArr p i k) * RotMat.quatArr p j k +
        RotMat.quatArr p i k * (a.elem j k - RotMat.quatArr p j k) + (a.elem i k - RotMat.quatArr p i k) * (a.elem j k - RotMat.quatArr p j k) := by ring
      rw [e]
      refine (abs_add_le _ _).trans ((add_le_add_left (abs_add_le _ _) _).trans ?_)
      rw [abs_mul, abs_mul, abs_mul]
      have x1 := mul_le_mul (E i k) (hB j k) (abs_nonneg _) hη0
      have x2 := mul_le_mul (hB i k) (E j k) (abs_nonneg _) zero_le_one
      have x3 := mul_le_mul (E i k) (E j k) (abs_nonneg _) hη0
      have x4 := mul_le_mul_of_nonneg_left hη hη0
      linarith
    have e : (a.elem * a.elemᵀ - 1) i j = ∑ k, (a.elem i k * a.elem j k - RotMat.quatArr p i k * RotMat.quatArr p j k) := by
      rw [← orth, Finset.sum_sub_distrib]; rfl
    rw [e, Fin.sum_univ_three]
    have := abs_add_three (a.elem i 0 * a.elem j 0 - RotMat.quatArr p i 0 * RotMat.quatArr p j 0) (a.elem i 1 * a.elem j 1 - RotMat.quatArr p i 1 * RotMat.quatArr p j 1)
      (a.elem i 2 * a.elem j 2 - RotMat.quatArr p i 2 * RotMat.quatArr p j 2)
    linarith [t 0, t 1, t 2]
  have hp0 : 0 < P := by linarith
  have p5 : (1 : ℝ) ≤ P ^ 5 := one_le_pow₀ hP
  have p5' : P ^ 5 ≤ 2 ^ 30 := (pow_le_pow_left₀ hp0.le hP' 5).trans (by norm_num)
  obtain ⟨n1, n2, -, n4, -, n6⟩ := C137_space_partial r a afl (7 * η) (by linarith) near P hP hP' (by rw [ae]; simpa using h0) (by
    have e : a.elem 0 0 * a.elem 1 1 - a.elem 0 1 * a.elem 1 0 = -(m.elem 0 0 * m.elem 1 1 - m.elem 0 1 * m.elem 1 0) := by
      rw [ae]; simp only [Matrix.mul_diagonal]; simp; ring
    rw [e, abs_neg]; exact h1)
  have full : Fl.prodFull r doubleLimits m (RotMat.mirrorAxis 0) = Fl.rotNormalize r doubleLimits a := by
    unfold Fl.prodFull Fl.checkNormalization
    rw [if_pos]
    exact ⟨ha, by show (m.valid && true) = true; rw [hv]; rfl⟩
  set b := Fl.rotNormalize r doubleLimits a with hb
  set η' := 13 * η + 2 ^ (-45 : ℤ) * P ^ 5 with hη'
  have q45 : (2 : ℝ) ^ (-45 : ℤ) = 1 / 35184372088832 := by norm_num
  have q43 : (2 : ℝ) ^ (-43 : ℤ) = 4 / 35184372088832 := by norm_num
  have q40 : (2 : ℝ) ^ (-40 : ℤ) = 32 / 35184372088832 := by norm_num
  have q53 : (2 : ℝ) ^ (-53 : ℤ) = 1 / 9007199254740992 := by norm_num
  have bE : ∀ i j, |b.elem i j - RotMat.quatArr p i j| ≤ η' := fun i j => by
    have := abs_sub_le (b.elem i j) (a.elem i j) (RotMat.quatArr p i j)
    have h2 := n6 i j
    have h3 := E i j
    rw [q45] at h2
    rw [hη', q45]
    linarith
  have hle : η' ≤ 1 / 1000 := by rw [hη', q45]; norm_num at p5'; linarith
  obtain ⟨c1, c2, c3, -⟩ := Fl.convert_core r b.elem p hu bE hle
  have hη0' := (abs_nonneg _).trans (bE 0 0)
  have hre : (toH p).re = p.w := rfl
  rw [hre, q43] at hw
  rw [q53] at c2 c3
  have ht : 0 < Fl.trace r b.elem := by
    have h1 := (abs_le.1 c2).1
    rw [hη', q45] at h1
    linarith
  obtain ⟨s, hs, k1, k2⟩ := c3 ht
  set c := Fl.fromMatrixComponents r b.elem with hc
  refine ⟨⟨c.1, ⟨c.2.1, m.valid⟩, m.valid, m.age⟩, ?_, ?_, hv, rfl⟩
  · unfold Fl.fromRotMatrixFull
    simp only [hf, if_true, full, ← hc]
    rw [if_pos c1]; rfl
  · have hE : (0 : ℝ) ≤ 6 * η' + 1 / 9007199254740992 * 48 := by positivity
    have h3 : len (c.2.1 - s • p.vec.elem) ≤ 2 * (6 * η' + 1 / 9007199254740992 * 48) := len3_le hE fun i => k2 i
    have h4 := Fl.norm_toH_sub_le ⟨c.1, ⟨c.2.1, m.valid⟩, m.valid, m.age⟩ ⟨s * p.w, ⟨s • p.vec.elem, true⟩, true, 0⟩
    have h5 : ‖toH ⟨c.1, ⟨c.2.1, m.valid⟩, m.valid, m.age⟩ - toH ⟨s * p.w, ⟨s • p.vec.elem, true⟩, true, 0⟩‖ ≤ 234 * η + 2 ^ (-40 : ℤ) * P ^ 5 := by
      refine h4.trans ((add_le_add k1 h3).trans ?_)
      rw [hη', q45, q40]
      linarith
    rcases hs with rfl | rfl
    · left
      have e : toH ⟨1 * p.w, ⟨(1 : ℝ) • p.vec.elem, true⟩, true, 0⟩ = toH p := by ext <;> simp
      rwa [e] at h5
    · right
      have e : toH ⟨-1 * p.w, ⟨(-1 : ℝ) • p.vec.elem, true⟩, true, 0⟩ = -toH p := by ext <;> simp
      rwa [e, sub_neg_eq_add] at h5

end WFMath
