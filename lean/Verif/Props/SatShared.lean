/- Property theorem C66 in space: boxes that share points when inner products are cut off. -/
import Verif.Props.Separating
import Verif.Props.PolyAdd

namespace WFMath
open Spec Matrix

/-- C66 in space, whatever the cut-off does: boxes that overlap deeply enough are reported. The hypotheses say that the rotated box has a point `x` with the cube of
half-width `δ` about it in the other box, and that `δ` times the sine of the smallest angle of edges that are not parallel covers the cut-off of the sizes.
Missing for the full property: shallow overlaps, for which it is false (`C66_shared_false`). -/
theorem C66_shared_any_partial (r : RBox 3) (b : Box 3) (hm : IsRotation r.orient) (ho : Ordered b) (c δ : ℝ) (hc : epsilon ≤ c) (hδ : 0 ≤ δ)
    (hax : ∀ i j, r.orient.elem i j ^ 2 = 1 ∨ r.orient.elem i j ^ 2 ≤ 1 - c ^ 2)
    (hdc : 2 * epsilon * (1 + ∑ k, |r.size.elem k|) ≤ δ * c) (x : Fin 3 → ℝ) (hx : x ∈ rboxSet r)
    (hcube : ∀ y : Fin 3 → ℝ, (∀ i, |y i - x i| ≤ δ) → y ∈ boxSet b) : interRB3 r b false = true := by
  have he := epsilon_pos
  have hc0 : 0 < c := lt_of_lt_of_le he hc
  have hxb : x ∈ boxSet b := hcube x fun i => by rw [sub_self, abs_zero]; exact hδ
  obtain ⟨f1, f2⟩ := faces_pass hm ho hxb hx
  refine (interRB3_iff _ _ _).2 ⟨f1, f2, satLoop_of fun q _ hq => ?_⟩
  obtain ⟨i, j⟩ := q
  have hyes : satStep r b false i j = none ∨ satStep r b false i j = some true := by
    by_cases hsm : (satAxis r.orient i j).sqrMag < epsilon * epsilon
    · left; rw [satStep_eq, if_pos hsm]
    right
    have hcc : c ^ 2 ≤ (satAxis r.orient i j).elem ⬝ᵥ (satAxis r.orient i j).elem :=
      (axes_of_cos hm hax i j).resolve_left fun h0 => hsm (by rw [Vec.sqrMag_eq, h0, zero_dotProduct]; exact mul_pos he he)
    have herr := satErr_le hm b i j
    rw [rboxSet_eq] at hx
    obtain ⟨t', ht', hx⟩ := hx
    have hx : x = rAt r t' := hx
    have p2 := proj_bounds (fun k => r.orient.elem k ⬝ᵥ (satAxis r.orient i j).elem * r.size.elem k) t' ht'
    have e2 := dot_rAt r (satAxis r.orient i j).elem t'
    rw [← hx] at e2
    rw [← e2] at p2
    -- the sum of the absolute values of the components of the normal
    have hone : c ≤ ∑ k, |(satAxis r.orient i j).elem k| := by
      have h1 : (satAxis r.orient i j).elem ⬝ᵥ (satAxis r.orient i j).elem ≤ (∑ k, |(satAxis r.orient i j).elem k|) ^ 2 := by
        have := Finset.sum_sq_le_sq_sum_of_nonneg (s := Finset.univ) (f := fun k => |(satAxis r.orient i j).elem k|) fun k _ => abs_nonneg _
        refine le_trans (le_of_eq ?_) this
        exact Finset.sum_congr rfl fun k _ => by rw [sq_abs, sq]
      exact abs_le_of_sq_le_sq' (hcc.trans h1) (Finset.sum_nonneg fun k _ => abs_nonneg _) |>.2
    have shift : ∀ s : ℝ, |s| = 1 → ∃ u, (∑ a, min 0 (bPart r b i j a)) ≤ u ∧ u ≤ (∑ a, max 0 (bPart r b i j a)) ∧
        (b.low.sub r.corner).elem ⬝ᵥ (satAxis r.orient i j).elem + u =
          (satAxis r.orient i j).elem ⬝ᵥ (x - r.corner.elem) + s * δ * ∑ k, |(satAxis r.orient i j).elem k| := fun s hs => by
      have hy := hcube (fun k => x k + s * δ * SignType.sign ((satAxis r.orient i j).elem k)) fun k => by
        rw [add_sub_cancel_left, abs_mul, abs_mul, hs, one_mul, abs_of_nonneg hδ]
        refine mul_le_of_le_one_right hδ ?_
        rcases lt_trichotomy ((satAxis r.orient i j).elem k) 0 with h | h | h
        · rw [sign_neg h]; simp
        · rw [h]; simp
        · rw [sign_pos h]; simp
      obtain ⟨t, ht, hty⟩ := exists_bAt ho hy
      refine ⟨∑ a, t a * bPart r b i j a, (proj_bounds (bPart r b i j) t ht).1, (proj_bounds (bPart r b i j) t ht).2, ?_⟩
      rw [← dot_bAt, ← hty]
      unfold dotProduct
      rw [Finset.mul_sum, ← Finset.sum_add_distrib]
      refine Finset.sum_congr rfl fun k _ => ?_
      simp only [Pi.sub_apply]
      rw [← self_mul_sign ((satAxis r.orient i j).elem k)]
      ring
    obtain ⟨u, hu1, hu2, hu⟩ := shift 1 (by simp)
    obtain ⟨v, hv1, hv2, hv⟩ := shift (-1) (by simp)
    have hdn := mul_le_mul_of_nonneg_left hone hδ
    have eL : |(∑ k, min 0 (rPart r i j k)) - ∑ k, min 0 (r.orient.elem k ⬝ᵥ (satAxis r.orient i j).elem * r.size.elem k)| ≤
        ∑ k, |(r.orient.row k).dot (satAxis r.orient i j) - r.orient.elem k ⬝ᵥ (satAxis r.orient i j).elem| * |r.size.elem k| := by
      rw [← Finset.sum_sub_distrib]
      exact (Finset.abs_sum_le_sum_abs _ _).trans (Finset.sum_le_sum fun k _ => min_close _ _ _)
    have eH : |(∑ k, max 0 (rPart r i j k)) - ∑ k, max 0 (r.orient.elem k ⬝ᵥ (satAxis r.orient i j).elem * r.size.elem k)| ≤
        ∑ k, |(r.orient.row k).dot (satAxis r.orient i j) - r.orient.elem k ⬝ᵥ (satAxis r.orient i j).elem| * |r.size.elem k| := by
      rw [← Finset.sum_sub_distrib]
      exact (Finset.abs_sum_le_sum_abs _ _).trans (Finset.sum_le_sum fun k _ => max_close _ _ _)
    have eS := le_refl |sepPart r b i j - (b.low.sub r.corner).elem ⬝ᵥ (satAxis r.orient i j).elem|
    have hE : satErr r b i j = |sepPart r b i j - (b.low.sub r.corner).elem ⬝ᵥ (satAxis r.orient i j).elem| +
      ∑ k, |(r.orient.row k).dot (satAxis r.orient i j) - r.orient.elem k ⬝ᵥ (satAxis r.orient i j).elem| * |r.size.elem k| := rfl
    have a1 := abs_le.1 eL; have a2 := abs_le.1 eH; have a3 := abs_le.1 eS
    refine satStep_false.2 ⟨hsm, ?_, ?_⟩ <;> linarith
  rcases hyes with h' | h' <;> rw [h'] at hq <;> simp at hq

/-- A turned cube with a corner in the middle of another cube. -/
example : interRB3 (⟨⟨0, true⟩, ⟨1, true⟩, ⟨!![3 / 5, 0, -4 / 5; 0, 1, 0; 4 / 5, 0, 3 / 5], false, true, 1⟩⟩ : RBox 3) ⟨⟨-1, true⟩, ⟨1, true⟩⟩ false = true := by
  have he := epsilon_pos
  have he2 := epsilon_lt
  norm_num at he2
  refine C66_shared_any_partial _ _ ⟨?_, ?_⟩ (fun i => by simp) (3 / 5) 1 (by linarith) zero_le_one (fun i j => ?_) ?_ 0 ⟨0, by simp, by funext k; simp⟩
    fun y hy i => ?_
  · ext i j; fin_cases i <;> fin_cases j <;> simp [Matrix.mul_apply, Fin.sum_univ_three] <;> norm_num
  · simp [det_fin_three]; norm_num
  · fin_cases i <;> fin_cases j <;> norm_num
  · simp [Fin.sum_univ_three]; linarith
  · have := abs_le.1 (hy i)
    simp at this ⊢
    exact this

/-- A turn by less than epsilon after a turn by the angle of the triangle (3, 4, 5). -/
noncomputable def tilted : RotMat 3 :=
  let u : ℝ := (2 ^ 50)⁻¹
  ⟨(5 * (1 + u ^ 2))⁻¹ • !![3 * (1 - u ^ 2), 6 * u, -4 * (1 + u ^ 2); -10 * u, 5 * (1 - u ^ 2), 0; 4 * (1 - u ^ 2), 8 * u, 3 * (1 + u ^ 2)], false, true, 1⟩
theorem tilted_isRotation : IsRotation tilted := by
  constructor
  · ext i j; fin_cases i <;> fin_cases j <;> simp [tilted, Matrix.mul_apply, Fin.sum_univ_three] <;> norm_num
  · simp [tilted, det_fin_three]; norm_num
/-- A flat slab, and a long rod that goes through it. -/
noncomputable def slab : Box 3 := ⟨⟨![-1, 3, -1], true⟩, ⟨![2 ^ 53, 4, 2 ^ 53], true⟩⟩
noncomputable def tiltedRod : RBox 3 := ⟨⟨![0, 0, 0], true⟩, ⟨![1, 1, 2 ^ 53], true⟩, tilted⟩

/-- C66 in space fails for shared points when an inner product is cut off: a rod that goes right through a solid slab of thickness 1 is not found to intersect it. -/
theorem C66_shared_false : IsRotation tiltedRod.orient ∧ Solid slab ∧ (∀ i, tiltedRod.size.elem i ≠ 0) ∧
    (boxInterior slab ∩ rboxInterior tiltedRod).Nonempty ∧ ∀ p, interRB3 tiltedRod slab p = false := by
  have he : epsilon = 30 * 2⁻¹ ^ 52 := by unfold epsilon; norm_num
  have hb : Solid slab := fun i => by fin_cases i <;> simp [slab] <;> norm_num
  refine ⟨tilted_isRotation, hb, fun i => by fin_cases i <;> simp [tiltedRod], ?_, fun p => ?_⟩
  · refine ⟨fun k => tiltedRod.corner.elem k + ∑ i, (![1 / 2, 1 / 2, 1 / 4] : Fin 3 → ℝ) i * tiltedRod.size.elem i * tiltedRod.orient.elem i k, fun k => ?_,
      fun i => by fin_cases i <;> simp [tiltedRod], ![1 / 2, 1 / 2, 1 / 4], fun i => by fin_cases i <;> simp <;> norm_num, rfl⟩
    fin_cases k <;> simp [tiltedRod, tilted, slab, Fin.sum_univ_three] <;> norm_num
  · have hA : (satAxis tiltedRod.orient 0 0).elem = ![0, 4 / 5, 6 / 5 * ((2 ^ 50)⁻¹ / (1 + ((2 ^ 50)⁻¹) ^ 2))] := by
      funext k; fin_cases k <;> simp [satAxis, tiltedRod, tilted] <;> norm_num
    have h0 : (tiltedRod.orient.row 0).dot (satAxis tiltedRod.orient 0 0) = 0 := 
      Vec.dot_of_exact_zero (u := tiltedRod.orient.row 0) (satAxis_perp tiltedRod.orient 0 0)
    have h1 : (tiltedRod.orient.row 1).dot (satAxis tiltedRod.orient 0 0) ≤ 1 := by
      rcases Vec.dot_cases (tiltedRod.orient.row 1) (satAxis tiltedRod.orient 0 0) with h | ⟨h, -⟩ <;> rw [h]
      · rw [hA]
        simp [RotMat.row, tiltedRod, tilted, dotProduct, Fin.sum_univ_three]; norm_num
      · norm_num
    have h2 : (tiltedRod.orient.row 2).dot (satAxis tiltedRod.orient 0 0) = 0 := by
      unfold Vec.dot
      rw [if_neg]
      rw [ge_iff_le, not_le]
      refine lt_of_lt_of_le ?_ (le_scaleEpsilonArr epsilon_pos.le)
      have m1 : 3 / 5 ≤ maxAbs (tiltedRod.orient.row 2).elem := by
        refine le_trans ?_ (le_maxAbs _ 2)
        simp [RotMat.row, tiltedRod, tilted]; norm_num
      have m2 : 3 / 5 ≤ maxAbs (satAxis tiltedRod.orient 0 0).elem := by
        refine le_trans ?_ (le_maxAbs _ 1)
        rw [hA]; norm_num [abs_of_pos]
      refine lt_of_lt_of_le ?_ (mul_le_mul_of_nonneg_left (le_min m1 m2) epsilon_pos.le)
      rw [hA, he]
      simp [RotMat.row, tiltedRod, tilted, Fin.sum_univ_three]
      norm_num [abs_of_pos]
    have hs : sepPart tiltedRod slab 0 0 = (slab.low.sub tiltedRod.corner).elem ⬝ᵥ (satAxis tiltedRod.orient 0 0).elem := by
      refine dot_of_le (M := 3) (fun i => by fin_cases i <;> simp [slab, tiltedRod] <;> norm_num) ?_
      rw [hA, he]
      simp [slab, tiltedRod, dotProduct, Fin.sum_univ_three]
      norm_num [abs_of_pos]
    have hs2 : 2 ≤ sepPart tiltedRod slab 0 0 := by
      rw [hs, hA]
      simp [slab, tiltedRod, dotProduct, Fin.sum_univ_three]
      norm_num
    have hr : ∑ k, max 0 (rPart tiltedRod 0 0 k) ≤ 1 := by
      unfold rPart
      rw [Fin.sum_univ_three, h0, h2]
      simp only [zero_mul, max_self, zero_add, add_zero]
      refine max_le zero_le_one ?_
      simp only [tiltedRod] at h1 ⊢
      simpa using h1
    have hbm : ∑ a, min 0 (bPart tiltedRod slab 0 0 a) = 0 := by
      unfold bPart
      rw [hA, Fin.sum_univ_three]
      simp [slab]
      norm_num
    have hstep : satStep tiltedRod slab p 0 0 = some false := by
      rw [satStep_eq, if_neg, hbm]
      · have : less (∑ k, max 0 (rPart tiltedRod 0 0 k) - sepPart tiltedRod slab 0 0) 0 p = true := by
          cases p
          · rw [less_false]; rw [he]; norm_num; linarith
          · rw [less_true]; linarith
        rw [this]; simp
      · rw [Vec.sqrMag_eq, hA, not_lt, he]
        simp [dotProduct, Fin.sum_univ_three]
        norm_num
    have hloop : satLoop tiltedRod slab p satPairs = false := by
      rw [satPairs, satLoop, hstep]
    rw [Bool.eq_false_iff]
    intro h
    rw [((interRB3_iff _ _ _).1 h).2.2] at hloop
    exact Bool.noConfusion hloop

end WFMath
