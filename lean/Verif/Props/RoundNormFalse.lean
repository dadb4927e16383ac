/- Property theorems C137, the negative part: renormalising a rotation matrix in floating point can ruin it. -/
import Verif.Model.RoundedGauss
import Verif.Lemmas.DetSign
import Verif.Props.RoundMatrix

namespace WFMath
open Spec Matrix Gauss

theorem Fl.pow_mul_le (a b : ℤ) {x y : ℝ} (hx : |x| ≤ 2 ^ a) (hy : |y| ≤ 2 ^ b) : |x * y| ≤ 2 ^ (a + b) := by
  rw [abs_mul, zpow_add₀ (by norm_num)]
  exact mul_le_mul hx hy (abs_nonneg _) (by positivity)

/-- With entries between `2^-100` and `2^100` a pivot of a matrix of doubles is acceptable. -/
theorem Fl.pivot_ok (r : Rounding 53) (hn : n ≤ 50) (m : Matrix (Fin n) (Fin n) ℝ) (i : Fin n) (h : ∀ j, |m j i| ≤ 2 ^ (100 : ℤ)) (hi : (2 : ℝ) ^ (-100 : ℤ) ≤ |m i i|) :
    ¬ r (m i i * m i i) < Fl.minval r doubleLimits m i := by
  have hlow : (2 : ℝ) ^ (-200 : ℤ) ≤ r (m i i * m i i) := by
    refine r.fl_le (IsFl.zpow Fl.pos53 _) ?_
    have : (2 : ℝ) ^ (-200 : ℤ) = 2 ^ (-100 : ℤ) * 2 ^ (-100 : ℤ) := by rw [← zpow_add₀ (by norm_num)]; norm_num
    rw [this, ← abs_mul_abs_self (m i i)]
    exact mul_self_le_mul_self (by positivity) hi
  rw [not_lt]
  refine le_trans ?_ hlow
  unfold Fl.minval
  dsimp only
  split
  · show (2 : ℝ) ^ (-1022 : ℤ) ≤ _
    exact zpow_le_zpow_right₀ (by norm_num) (by norm_num)
  · refine r.le_fl (IsFl.zpow Fl.pos53 _) ?_
    have hsum : Fl.sum r (fun j => r (m j i * m j i)) ≤ 2 ^ (200 + (n : ℤ)) := by
      have key : ∀ (l : List (Fin n)) (s : ℝ) (k : ℤ), 200 ≤ k → s ≤ 2 ^ k →
          l.foldl (fun s j => r (s + r (m j i * m j i))) s ≤ 2 ^ (k + l.length) := by
        intro l
        induction l with
        | nil => intro s k _ hs; simpa using hs
        | cons j l ih =>
          intro s k hk hs
          rw [List.foldl_cons]
          have h1 : r (m j i * m j i) ≤ 2 ^ k := by
            refine r.le_fl (IsFl.zpow Fl.pos53 _) ((le_abs_self _).trans ((Fl.pow_mul_le 100 100 (h j) (h j)).trans ?_))
            exact zpow_le_zpow_right₀ (by norm_num) (by linarith)
          have h2 : r (s + r (m j i * m j i)) ≤ 2 ^ (k + 1) := by
            refine r.le_fl (IsFl.zpow Fl.pos53 _) ?_
            rw [zpow_add_one₀ (by norm_num)]
            linarith
          refine (ih _ (k + 1) (by linarith) h2).trans (le_of_eq ?_)
          congr 1
          push_cast [List.length_cons]
          ring
      have := key (List.finRange n) 0 200 le_rfl (by positivity)
      rwa [List.length_finRange] at this
    have hmax : (2 : ℝ) ^ (1023 : ℤ) ≤ doubleLimits.maxD := by
      show _ ≤ (2 - 2 ^ (-52 : ℤ)) * (2 : ℝ) ^ (1023 : ℤ)
      refine le_mul_of_one_le_left (by positivity) ?_
      norm_num
    rw [div_le_iff₀ doubleLimits.maxD_pos]
    calc Fl.sum r (fun j => r (m j i * m j i)) ≤ 2 ^ (200 + (n : ℤ)) := hsum
      _ ≤ 2 ^ ((-200 : ℤ) + 1023) := zpow_le_zpow_right₀ (by norm_num) (by omega)
      _ = 2 ^ (-200 : ℤ) * 2 ^ (1023 : ℤ) := zpow_add₀ (by norm_num) _ _
      _ ≤ 2 ^ (-200 : ℤ) * doubleLimits.maxD := mul_le_mul_of_nonneg_left hmax (by positivity)

/-- The inverse of a two by two matrix as it is computed when both pivots are acceptable. -/
theorem Fl.inverse_two (r : Rounding 53) (L : Limits) (M : Matrix (Fin 2) (Fin 2) ℝ) (hc : M 1 0 ≠ 0)
    (h0 : ¬ r (M 0 0 * M 0 0) < Fl.minval r L M 0)
    (h1 : ∀ x, ¬ r (r (M 1 1 - r (r (M 0 1 / M 0 0) * M 1 0)) * r (M 1 1 - r (r (M 0 1 / M 0 0) * M 1 0))) <
      Fl.minval r L !![1, r (M 0 1 / M 0 0); x, r (M 1 1 - r (r (M 0 1 / M 0 0) * M 1 0))] 1)
    (hb : r (M 0 1 / M 0 0) ≠ 0) :
    Fl.inverseImpl r L M identityArr =
      let q := r (1 / M 0 0)
      let b := r (M 0 1 / M 0 0)
      let d := r (M 1 1 - r (b * M 1 0))
      let o10 := r (-r (q * M 1 0) / d)
      let o11 := r (1 / d)
      some !![r (q - r (o10 * b)), -r (o11 * b); o10, o11] := by
  have one := IsFl.one Fl.pos53
  set b := r (M 0 1 / M 0 0) with hbdef
  set d := r (M 1 1 - r (b * M 1 0)) with hd
  have hz : (0 : ℝ) / M 0 0 = 0 := zero_div _
  have s1 : Fl.forwardStep r L 0 (M, identityArr) = some (!![1, b; r (-r (M 1 0)), d], !![r (1 / M 0 0), 0; -r (r (1 / M 0 0) * M 1 0), 1]) := by
    unfold Fl.forwardStep Fl.pivot
    rw [if_neg h0]
    simp only [Option.map_some, Option.some.injEq]
    unfold Fl.clearBelow Fl.scaleRow
    refine Prod.ext ?_ ?_
    · ext i j
      fin_cases i <;> fin_cases j <;> simp [hc, hd, hbdef]
    · ext i j
      fin_cases i <;> fin_cases j <;> simp [hc, identityArr, r.zero, r.of_fl one, r.odd]
      exact r.of_fl (r.isFl _)
  have s2 : Fl.forwardStep r L 1 (!![1, b; r (-r (M 1 0)), d], !![r (1 / M 0 0), 0; -r (r (1 / M 0 0) * M 1 0), 1]) =
      some (!![1, b; r (-r (M 1 0)), 1], !![r (1 / M 0 0), 0; r (-r (r (1 / M 0 0) * M 1 0) / d), r (1 / d)]) := by
    unfold Fl.forwardStep Fl.pivot
    rw [if_neg (by simpa using h1 (r (-r (M 1 0))))]
    simp only [Option.map_some, Option.some.injEq]
    unfold Fl.clearBelow Fl.scaleRow
    refine Prod.ext ?_ ?_
    · ext i j
      fin_cases i <;> fin_cases j <;> simp
    · ext i j
      fin_cases i <;> fin_cases j <;> simp
  unfold Fl.inverseImpl
  have hf : Fl.forward r L (List.finRange 2) (M, identityArr) =
      some (!![1, b; r (-r (M 1 0)), 1], !![r (1 / M 0 0), 0; r (-r (r (1 / M 0 0) * M 1 0) / d), r (1 / d)]) := by
    rw [show List.finRange 2 = [0, 1] from rfl]
    simp only [Fl.forward, s1, s2, Option.bind_some]
  rw [hf]
  simp only [Option.map_some, Option.some.injEq, show List.finRange 2 = [0, 1] from rfl, List.foldr]
  ext i j
  unfold Fl.backStep
  fin_cases i <;> fin_cases j <;> simp [hb, r.odd, ← hd]
  exact r.of_fl (r.isFl _)

/-! ### A quarter turn, off by less than `2^-52`, that is ruined -/

namespace Fl
/-- `5 · 2^-60` and `1 - 2^-53`. -/
noncomputable def tiny : ℝ := 5 / 1152921504606846976
noncomputable def nearOne : ℝ := 9007199254740991 / 9007199254740992
theorem isFl_tiny : IsFl 53 tiny := ⟨5, -60, by norm_num, by norm_num [tiny]⟩
theorem isFl_nearOne : IsFl 53 nearOne := ⟨9007199254740991, -53, by norm_num, by norm_num [nearOne]⟩
/-- The array of a quarter turn with rounding errors. -/
noncomputable def worn : Matrix (Fin 2) (Fin 2) ℝ := !![tiny, nearOne; -nearOne, tiny]

theorem worn_q (r : Rounding 53) : r (1 / tiny) = 230584300921369408 := by
  rw [r.eq_of_near Fl.pos53 (x := 1 / tiny) (e := 57) (k := 7205759403792794) (by norm_num [tiny]) (by norm_num) (by norm_num [tiny, abs_lt])]; norm_num
theorem worn_b (r : Rounding 53) : r (nearOne / tiny) = 230584300921369376 := by
  rw [r.eq_of_near Fl.pos53 (x := nearOne / tiny) (e := 57) (k := 7205759403792793) (by norm_num [tiny, nearOne]) (by norm_num) (by norm_num [tiny, nearOne, abs_lt])]
  norm_num
theorem worn_qs (r : Rounding 53) : r (230584300921369408 * nearOne) = 230584300921369376 := by
  rw [r.eq_of_near Fl.pos53 (x := 230584300921369408 * nearOne) (e := 57) (k := 7205759403792793) (by norm_num [nearOne]) (by norm_num) (by norm_num [nearOne, abs_lt])]
  norm_num
theorem worn_bs (r : Rounding 53) : r (230584300921369376 * nearOne) = 230584300921369344 := by
  rw [r.eq_of_near Fl.pos53 (x := 230584300921369376 * nearOne) (e := 57) (k := 7205759403792792) (by norm_num [nearOne]) (by norm_num) (by norm_num [nearOne, abs_lt])]
  norm_num
theorem worn_d (r : Rounding 53) : r (tiny + 230584300921369344) = 230584300921369344 := by
  rw [r.eq_of_near Fl.pos53 (x := tiny + 230584300921369344) (e := 57) (k := 7205759403792792) (by norm_num [tiny]) (by norm_num) (by norm_num [tiny, abs_lt])]
  norm_num
theorem worn_t (r : Rounding 53) : r (230584300921369376 / 230584300921369344) = 4503599627370497 / 4503599627370496 := by
  rw [r.eq_of_near Fl.pos53 (x := 230584300921369376 / 230584300921369344) (e := 0) (k := 4503599627370497) (by norm_num) (by norm_num) (by norm_num [abs_lt])]
  norm_num
theorem worn_tb (r : Rounding 53) : r (4503599627370497 / 4503599627370496 * 230584300921369376) = 230584300921369440 := by
  rw [r.eq_of_near Fl.pos53 (x := 4503599627370497 / 4503599627370496 * 230584300921369376) (e := 57) (k := 7205759403792795) (by norm_num) (by norm_num) (by norm_num [abs_lt])]
  norm_num
theorem worn_last (r : Rounding 53) : r (32 - tiny) = 32 := by
  rw [r.eq_of_near Fl.pos53 (x := 32 - tiny) (e := 4) (k := 9007199254740992) (by norm_num [tiny]) (by norm_num) (by norm_num [tiny, abs_lt])]
  norm_num

theorem worn_inverse (r : Rounding 53) : ∃ x y z, Fl.inverseImpl r doubleLimits wornᵀ identityArr = some !![-32, x; y, z] := by
  have e0 : wornᵀ 0 0 = tiny := rfl
  have e1 : wornᵀ 0 1 = -nearOne := rfl
  have e2 : wornᵀ 1 0 = nearOne := rfl
  have e3 : wornᵀ 1 1 = tiny := rfl
  have hb : r (-nearOne / tiny) = -230584300921369376 := by rw [neg_div, r.odd, worn_b]
  have hd : r (tiny - r (-230584300921369376 * nearOne)) = 230584300921369344 := by
    rw [neg_mul, r.odd, worn_bs, sub_neg_eq_add, worn_d]
  have h := Fl.inverse_two r doubleLimits wornᵀ (by rw [e2]; norm_num [nearOne])
    (Fl.pivot_ok r (by norm_num) _ 0 (fun j => by fin_cases j <;> norm_num [worn, tiny, nearOne, abs_of_pos]) (by norm_num [worn, tiny, abs_of_pos]))
    (fun x => by
      rw [e0, e1, e2, e3, hb, hd]
      exact Fl.pivot_ok r (by norm_num) !![1, -230584300921369376; x, 230584300921369344] 1 (fun j => by fin_cases j <;> norm_num) (by norm_num))
    (by rw [e0, e1, hb]; norm_num)
  simp only [e0, e1, e2, e3, hb, hd] at h
  have e : r (r (1 / tiny) - r (r (-r (r (1 / tiny) * nearOne) / 230584300921369344) * -230584300921369376)) = -32 := by
    rw [worn_q, worn_qs, neg_div, r.odd, worn_t, neg_mul_neg, worn_tb, show (230584300921369408 : ℝ) - 230584300921369440 = -32 by norm_num, r.odd]
    rw [r.of_fl ⟨1, 5, by norm_num, by norm_num⟩]
  rw [e] at h
  exact ⟨_, _, _, h⟩

theorem worn_square (r : Rounding 53) : r (nearOne * nearOne) = 4503599627370495 / 4503599627370496 := by
  rw [r.eq_of_near Fl.pos53 (x := nearOne * nearOne) (e := -1) (k := 9007199254740990) (by norm_num [nearOne]) (by norm_num) (by norm_num [nearOne, abs_lt])]
  norm_num
theorem worn_diag (r : Rounding 53) : r (r (tiny * tiny) + r (nearOne * nearOne)) = 4503599627370495 / 4503599627370496 := by
  have h : r (tiny * tiny) = 25 / 1329227995784915872903807060280344576 := by
    rw [show tiny * tiny = 25 / 1329227995784915872903807060280344576 by norm_num [tiny]]
    exact r.of_fl ⟨25, -120, by norm_num, by norm_num⟩
  rw [h, worn_square, r.eq_of_near Fl.pos53 (x := 25 / 1329227995784915872903807060280344576 + 4503599627370495 / 4503599627370496) (e := -1) (k := 9007199254740990)
    (by norm_num) (by norm_num) (by norm_num [abs_lt])]
  norm_num
theorem worn_error (r : Rounding 53) : Fl.orthError r worn = 1 / 4503599627370496 := by
  have h1 : r (4503599627370495 / 4503599627370496 - 1) = -(1 / 4503599627370496) := by
    rw [show (4503599627370495 / 4503599627370496 - 1 : ℝ) = -(1 / 4503599627370496) by norm_num, r.odd, r.of_fl ⟨1, -52, by norm_num, by norm_num⟩]
  have h0 : ∀ x : ℝ, r (r x) = r x := fun x => r.of_fl (r.isFl x)
  have d0 : Fl.sum r (fun k => r (worn 0 k * worn 0 k)) = 4503599627370495 / 4503599627370496 := by
    show r (r (0 + r (tiny * tiny)) + r (nearOne * nearOne)) = _
    rw [zero_add, h0, worn_diag]
  have d1 : Fl.sum r (fun k => r (worn 1 k * worn 1 k)) = 4503599627370495 / 4503599627370496 := by
    show r (r (0 + r (-nearOne * -nearOne)) + r (tiny * tiny)) = _
    rw [neg_mul_neg, zero_add, h0, add_comm, worn_diag]
  have o0 : Fl.sum r (fun k => r (worn 0 k * worn 1 k)) = 0 := by
    show r (r (0 + r (tiny * -nearOne)) + r (nearOne * tiny)) = _
    rw [zero_add, h0, mul_neg, r.odd, mul_comm, neg_add_cancel, r.zero]
  have o1 : Fl.sum r (fun k => r (worn 1 k * worn 0 k)) = 0 := by
    show r (r (0 + r (-nearOne * tiny)) + r (tiny * nearOne)) = _
    rw [zero_add, h0, neg_mul, r.odd, mul_comm, neg_add_cancel, r.zero]
  unfold Fl.orthError
  rw [show List.finRange 2 = [0, 1] from rfl]
  simp only [List.foldl, d0, d1, o0, o1, h1]
  norm_num
theorem worn_det (r : Rounding 53) : ¬ Fl.determinantImpl r doubleLimits worn < 0 := by
  have hp : Fl.detPivot r doubleLimits 0 worn = some worn := by
    unfold Fl.detPivot
    rw [if_neg]
    exact Fl.pivot_ok r (by norm_num) _ 0 (fun j => by fin_cases j <;> norm_num [worn, tiny, nearOne, abs_of_pos]) (by norm_num [worn, tiny, abs_of_pos])
  have hb : r (-nearOne / tiny) = -230584300921369376 := by rw [neg_div, r.odd, worn_b]
  have hd : Fl.detClear r 0 worn 1 1 = 230584300921369344 := by
    unfold Fl.detClear
    simp [worn, hb]
    rw [mul_comm, r.odd, worn_bs, sub_neg_eq_add, worn_d]
  have h0 : Fl.detClear r 0 worn 0 0 = tiny := by unfold Fl.detClear; simp [worn]
  unfold Fl.determinantImpl
  rw [show (List.finRange 2).filter (fun i => decide (i.val + 1 < 2)) = [0] from rfl]
  simp only [Fl.detForward, hp, Option.bind_some, show List.finRange 2 = [0, 1] from rfl, List.map, List.foldl, h0, hd, one_mul, not_lt]
  refine r.nonneg (mul_nonneg (r.nonneg (by norm_num [tiny])) (by norm_num))

theorem worn_setVals (r : Rounding 53) (m : RotMat 2) : Fl.setVals r doubleLimits 1 m worn epsilon = some (⟨worn, false, true, 1⟩, true) := by
  have he := epsilon_pos
  have he2 := epsilon_lt
  norm_num at he2
  have hev : epsilon = 30 / 4503599627370496 := by unfold epsilon; norm_num
  have hl : Fl.setValsLoop r doubleLimits |epsilon| 1 worn = .accepted worn := by
    rw [Fl.setValsLoop, worn_error, abs_of_pos he, if_neg (by rw [hev]; norm_num), if_pos (by rw [hev]; norm_num)]
  unfold Fl.setVals
  rw [if_neg (by rw [abs_of_pos he]; norm_num; linarith), hl]
  simp only [worn_det r, decide_false]

theorem worn_stands : Stands worn !![0, 1; -1, 0] (2 ^ (-52 : ℤ)) := by
  intro v
  rw [← sub_mulVec]
  unfold len
  rw [Real.sqrt_le_left (by positivity), mul_pow, Real.sq_sqrt (by simp [dotProduct, Fin.sum_univ_two]; nlinarith [sq_nonneg (v 0), sq_nonneg (v 1)])]
  simp [worn, dotProduct, mulVec, Fin.sum_univ_two, tiny, nearOne]
  norm_num
  nlinarith [sq_nonneg (v 0), sq_nonneg (v 1)]
end Fl

/-- C137 is false of the code: `setVals` accepts an array that is within `2^-52` of the quarter turn of the plane, and `normalize`, called to remove round-off errors,
turns the upper left entry (about 4e-18) into -16, however ties are rounded. The elimination divides by the tiny pivot instead of exchanging rows. -/
theorem C137_false : ∃ vals : Matrix (Fin 2) (Fin 2) ℝ, (∀ i j, IsFl 53 (vals i j)) ∧ Stands vals !![0, 1; -1, 0] (2 ^ (-52 : ℤ)) ∧
    ∀ (r : Rounding 53) (m : RotMat 2), ∃ m1, Fl.setVals r doubleLimits 1 m vals epsilon = some (m1, true) ∧ m1.elem = vals ∧ m1.valid = true ∧
      (Fl.rotNormalize r doubleLimits m1).elem 0 0 = -16 ∧ (Fl.rotNormalize r doubleLimits m1).valid = true := by
  refine ⟨Fl.worn, fun i j => ?_, Fl.worn_stands, fun r m => ⟨_, Fl.worn_setVals r m, rfl, rfl, ?_⟩⟩
  · fin_cases i <;> fin_cases j
    exacts [Fl.isFl_tiny, Fl.isFl_nearOne, Fl.isFl_nearOne.neg, Fl.isFl_tiny]
  · obtain ⟨x, y, z, h⟩ := Fl.worn_inverse r
    have hb : Fl.normalizeBuf r doubleLimits ⟨Fl.worn, false, true, 1⟩ = some !![-32, x; y, z] := h
    unfold Fl.rotNormalize
    rw [hb]
    refine ⟨?_, rfl⟩
    show r (r (Fl.tiny + -32) / 2) = -16
    rw [show Fl.tiny + -32 = -(32 - Fl.tiny) by ring, r.odd, Fl.worn_last, neg_div, r.odd, show (32 : ℝ) / 2 = 16 by norm_num, r.of_fl ⟨1, 4, by norm_num, by norm_num⟩]

/-- C137 fails without any explicit call of `normalize` too: after 20 inversions, each of them exact, the product with the identity renormalises. -/
theorem C137_product_false : ∃ vals : Matrix (Fin 2) (Fin 2) ℝ, Stands vals !![0, 1; -1, 0] (2 ^ (-52 : ℤ)) ∧
    ∀ (r : Rounding 53) (m : RotMat 2), ∃ m1, Fl.setVals r doubleLimits 1 m vals epsilon = some (m1, true) ∧
      (RotMat.inverse^[20] m1).elem = vals ∧ (Fl.prodFull r doubleLimits (RotMat.inverse^[20] m1) RotMat.identity).elem 0 0 = -16 := by
  refine ⟨Fl.worn, Fl.worn_stands, fun r m => ⟨_, Fl.worn_setVals r m, ?_⟩⟩
  have hinv : RotMat.inverse^[20] (⟨Fl.worn, false, true, 1⟩ : RotMat 2) = ⟨Fl.worn, false, true, 21⟩ := by
    simp only [Function.iterate_succ, Function.iterate_zero, Function.comp, id, RotMat.inverse, Matrix.of_apply]
    rfl
  have hprod : Fl.prod r (⟨Fl.worn, false, true, 21⟩ : RotMat 2) RotMat.identity = ⟨Fl.worn, false, true, 21⟩ := by
    unfold Fl.prod RotMat.identity
    simp only [RotMat.mk.injEq]
    refine ⟨?_, by simp⟩
    have t := r.of_fl Fl.isFl_tiny
    have o := r.of_fl Fl.isFl_nearOne
    ext i j
    fin_cases i <;> fin_cases j <;> simp [Fl.sum, show List.finRange 2 = [0, 1] from rfl, Fl.worn, r.zero, r.odd, t, o]
  rw [hinv]
  refine ⟨rfl, ?_⟩
  unfold Fl.prodFull Fl.checkNormalization
  rw [hprod, if_pos ⟨by decide, rfl⟩]
  obtain ⟨x, y, z, h⟩ := Fl.worn_inverse r
  have hb : Fl.normalizeBuf r doubleLimits ⟨Fl.worn, false, true, 21⟩ = some !![-32, x; y, z] := h
  unfold Fl.rotNormalize
  rw [hb]
  show r (r (Fl.tiny + -32) / 2) = -16
  rw [show Fl.tiny + -32 = -(32 - Fl.tiny) by ring, r.odd, Fl.worn_last, neg_div, r.odd, show (32 : ℝ) / 2 = 16 by norm_num, r.of_fl ⟨1, 4, by norm_num, by norm_num⟩]

end WFMath
