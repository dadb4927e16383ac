/- Cases of the theorems of Props/Probability, Props/Random, Props/RotBox, Props/RotEqual, Props/RotMatrix, Props/RotNormalize, Props/Stream,
Props/StreamPoly, Props/Time and Props/SeedStreams: their hypotheses hold for concrete objects. -/
import Verif.Cases.Common
import Verif.Props.Probability
import Verif.Props.Random
import Verif.Props.RotEqual
import Verif.Props.RotNormalize
import Verif.Props.StreamPoly
import Verif.Props.Time
import Verif.Props.SeedStreams

namespace WFMath.Cases
open WFMath Spec Matrix

/-! ### Props/Probability -/

example := Prob.C80_logFactorial_small (n := 7) (by norm_num)
example := Prob.C80_gaussian (s := -2) (by norm_num) 1 3

/-! ### Props/Random -/

section
open MT
theorem mt19937_spec (s : BitVec 32) : IsMTSequence (mt19937 s) ∧ IsSeeded s (mt19937 s) := by
  obtain ⟨x, ⟨h1, h2⟩, -⟩ := C08_spec_determines s
  refine ⟨mtSequence_isMT _, ?_, fun k hk => ?_⟩
  · rw [← h2.1, seeded_unique s x h2 0 (by omega)]; exact mtSequence_init _ _ (by omega)
  · have e : ∀ k < 624, mt19937 s k = x k := fun k hk => (mtSequence_init _ _ hk).trans (seeded_unique s x h2 k hk).symm
    rw [e _ (by omega), e _ (by omega)]; exact h2.2 k hk
example (g : MTRand) (k : Nat) := C08_mt19937 g 5489#32 k (mt19937 5489#32) (mt19937_spec _).1 (mt19937_spec _).2
example := C08_array_spec_inhabited [0x123, 0x234, 0x345, 0x456] (by simp) (by simp)
example (g : MTRand) (k : Nat) : ∃ x g1 g2, IsMTSequence x ∧ seedArray g [0x123, 0x234, 0x345, 0x456] = some g1 ∧
    draws k g1 = some (List.ofFn (fun i : Fin k => temper (x (624 + i.val))), g2) := by
  obtain ⟨x, h1, h2⟩ := C08_array_spec_inhabited [0x123, 0x234, 0x345, 0x456] (by simp) (by simp)
  obtain ⟨g1, g2, h⟩ := C08_mt19937_array g [0x123, 0x234, 0x345, 0x456] (by simp) (by simp) k x h1 h2
  exact ⟨x, g1, g2, h1, h⟩
/-- After seeding, the draws that the theorem asks for exist. -/
example (g : MTRand) : ∃ g1 ws g2 g'', seed g 7#32 = some g1 ∧ draws 5 g1 = some (ws, g2) ∧ randIntN 9#32 5 g1 = some ((randIntFrom 9#32 ws).map Prod.fst, g'') := by
  obtain ⟨g1, g2, h1, h2⟩ := C08_mt19937 g 7#32 5 (mt19937 7#32) (mt19937_spec _).1 (mt19937_spec _).2
  obtain ⟨g'', h⟩ := C11_uses_draws 9#32 5 g1 g2 _ h2
  exact ⟨g1, _, g2, g'', h1, h2, h⟩
example := C11_unbiased_word 5#32 1#32 4#32 (by decide) (by decide)
example := C11_unbiased_stream 5#32 1#32 4#32 (by decide) (by decide) 10
example := C12_rand_interval 3#32 4#32 (5 / 2) (by norm_num)
open Shuffle in
example := C13_permutation (n := 3) (fun p => p - 1) (fun p _ _ => by simp only; omega) ![10, 20, 30]
example := C13_fair 5 (by norm_num) (Equiv.swap 1 3)
example := C13_unfair_above_uint32 (2 ^ 32 + 1) (by norm_num)
end

/-! ### Props/SeedStreams -/

section
open MT
example (g : MTRand) := C127_seeds g g 1#32 2#32 (by decide)
example (g : MTRand) : ∃ g1, seed g 1#32 = some g1 ∧ ∃ ws us g2, draws (10 + 624) g1 = some (ws ++ us, g2) ∧ us.length = 624 ∧ ∃ w ∈ us, w ≠ 0 := by
  obtain ⟨g1, -, h, -⟩ := C08_mt19937 g 1#32 0 (mt19937 1#32) (mt19937_spec _).1 (mt19937_spec _).2
  exact ⟨g1, h, C127_alive g g1 (Or.inl ⟨_, h⟩) 10⟩
/-- Two generators that differ only in the low bits of the first word of the state. -/
example (k : Nat) := C127_low_bits ⟨fun i => BitVec.ofNat 32 (i.val * 7), 624⟩ ⟨fun i => if i = 0 then 5#32 else BitVec.ofNat 32 (i.val * 7), 624⟩ rfl rfl
  (by decide) (fun i hi => by simp [hi]) k
example (g : MTRand) (t c : List (BitVec 8)) (buf : Fin 624 → BitVec 32) := C128_changes g g t c buf buf 3 8 (by norm_num) (by norm_num)
end

/-! ### Props/RotBox -/

noncomputable def rboxA : RBox 2 := ⟨⟨![1, 2], true⟩, ⟨![3, -4], true⟩, turnA⟩
example := C64_center rboxA turnA_rotation
example : ∃ c, rboxA.getCorner 3 = some c ∧ interRP rboxA c false = true := by
  obtain ⟨c, hc⟩ := Option.ne_none_iff_exists'.1 (show rboxA.getCorner 3 ≠ none by simp [RBox.getCorner])
  exact ⟨c, hc, C64_corner_member rboxA turnA_rotation 3 c hc⟩
example := C67_axis_rotated boxA rboxA boxA_ordered
example (L : Gauss.Limits) := C67_rotated_rotated L rboxA ⟨⟨![1, 2], true⟩, ⟨![1, 1], true⟩, turnA⟩ turnA_rotation turnA_rotation
example := C89_contains_ball rboxA ballA turnA_rotation (by norm_num [ballA])
example := C89_ball_contains rboxA ballA turnA_rotation (by norm_num [ballA])
example := C89_segment rboxA ⟨⟨![0, 0], true⟩, ⟨![3, 5], true⟩⟩ turnA_rotation
example := C89_contains_segment rboxA ⟨⟨![0, 0], true⟩, ⟨![3, 5], true⟩⟩ turnA_rotation
example := C89_segment_contains ⟨⟨![0, 0], true⟩, ⟨![3, 5], true⟩⟩ rboxA turnA_rotation

/-! ### Props/RotEqual -/

example := C96_invalid turnA ⟨turnA.elem, false, false, 0⟩ (eps := 1 / 1000) (by norm_num) (Or.inr rfl)
example : turnA.isEqualTo turnA (1 / 1000) = some true := C96_refl turnA (by norm_num) rfl
example : (RotMat.identity : RotMat 3).isEqualTo (RotMat.mirrorAxis 1) 3 = none := C96_coarse 1 (by norm_num)

/-! ### Props/RotMatrix -/

/-- The vector (1, 0, 5), turned in the plane of the first two axes. -/
theorem rotate_ok (θ : ℝ) (v : Vec 3) : ∃ w, v.rotate 0 1 θ = some w :=
  Option.isSome_iff_exists.1 ((C24_defined v 0 1 θ).2 (by decide))
theorem rotation_ok (θ : ℝ) : ∃ m, RotMat.rotation (0 : Fin 3) 1 θ = some m := by
  unfold RotMat.rotation; rw [if_neg (by decide)]; exact ⟨_, rfl⟩
example (v : Vec 3) : ∃ w m, v.rotate 0 1 1 = some w ∧ RotMat.rotation (0 : Fin 3) 1 1 = some m ∧ w = v.rotateM m ∧ w.sqrMag = v.sqrMag ∧
    w.elem 0 = v.elem 0 * Real.cos 1 - v.elem 1 * Real.sin 1 ∧ w.rotate 0 1 (-1) = some v := by
  obtain ⟨w, hw⟩ := rotate_ok 1 v
  obtain ⟨m, hm⟩ := rotation_ok 1
  exact ⟨w, m, hw, hm, C24_matrix v w m 0 1 1 hw hm, C24_length v w 0 1 1 hw, (C24_components v w 0 1 1 hw).1, C24_inverse v w 0 1 1 hw⟩
example (v : Vec 3) : ∃ w x, v.rotate 0 1 1 = some w ∧ w.rotate 0 1 2 = some x ∧ v.rotate 0 1 (1 + 2) = some x := by
  obtain ⟨w, hw⟩ := rotate_ok 1 v
  obtain ⟨x, hx⟩ := rotate_ok 2 w
  exact ⟨w, x, hw, hx, C24_additive v w x 0 1 1 2 hw hx⟩
example (L : Gauss.Limits) : ∃ m, (RotTerm.inverse (.prod (.mirrorAxis (0 : Fin 3)) (.rotation 0 1 1))).eval L = some m ∧ IsRotation m ∧ m.valid = true := by
  obtain ⟨m, hm⟩ := rotation_ok 1
  have h : ∃ m, (RotTerm.inverse (.prod (.mirrorAxis (0 : Fin 3)) (.rotation 0 1 1))).eval L = some m := ⟨_, by simp only [RotTerm.eval, hm]; rfl⟩
  obtain ⟨m', hm'⟩ := h
  exact ⟨m', hm', C40_invariant L (RotTerm.inverse (.prod (.mirrorAxis (0 : Fin 3)) (.rotation 0 1 1))) ⟨trivial, trivial⟩ m' hm'⟩
example (L : Gauss.Limits) (v : Vec 3) := C41_compose L v turnB flipC turnB_rotation flipC_rotation
example (L : Gauss.Limits) := C41_products L turnB flipC turnB_rotation flipC_rotation
example (v : Vec 3) := C41_inverse v turnB turnB_rotation rfl
example (u v : Vec 3) := C41_isometry u v flipC flipC_rotation
example := C41_accessors flipC flipC_rotation
example : ∃ m m' m'', RotMat.rotation (0 : Fin 3) 1 1 = some m ∧ RotMat.rotation (0 : Fin 3) 1 2 = some m' ∧
    RotMat.rotation (0 : Fin 3) 1 (1 + 2) = some m'' ∧ m.elem * m'.elem = m''.elem := by
  obtain ⟨m, hm⟩ := rotation_ok 1
  obtain ⟨m', hm'⟩ := rotation_ok 2
  obtain ⟨m'', hm''⟩ := rotation_ok (1 + 2)
  exact ⟨m, m', m'', hm, hm', hm'', (C42_axes 0 1 1 2 m m' m'' hm hm' hm'').2.2.1⟩
/-- The plane of (1, 0, 0) and (1, 1, 0). -/
theorem plane_exact : DotExact (⟨![1, 0, 0], true⟩ : Vec 3) ⟨![1, 1, 0], true⟩ :=
  dotExact_big (fun i => by fin_cases i <;> simp) (by simp [dotProduct, Fin.sum_univ_three]; norm_num)
theorem plane_ok : ∃ m, RotMat.rotationPlane (⟨![1, 0, 0], true⟩ : Vec 3) ⟨![1, 1, 0], true⟩ 1 = .ok m := by
  unfold RotMat.rotationPlane
  have e1 : (⟨![1, 0, 0], true⟩ : Vec 3).sqrMag = 1 := by simp [Vec.sqrMag, Fin.sum_univ_three]
  rw [if_neg (by rw [e1]; norm_num)]
  simp only
  have hdd : (⟨![1, 0, 0], true⟩ : Vec 3).dot ⟨![1, 1, 0], true⟩ = 1 := by
    have h : _ = _ := plane_exact
    rw [h]; simp [dotProduct, Fin.sum_univ_three]
  have e2 : (RotMat.vperp (⟨![1, 0, 0], true⟩ : Vec 3) ⟨![1, 1, 0], true⟩).sqrMag = 1 := by
    unfold RotMat.vperp
    rw [hdd, e1, Vec.sqrMag_eq]
    simp [dotProduct, Fin.sum_univ_three]
  rw [if_neg]
  · exact ⟨_, rfl⟩
  · rw [e1, e2]
    have h3 := epsilon_lt
    have h4 := epsilon_pos
    norm_num at h3 ⊢
    nlinarith
example : ∃ m m' m'', RotMat.rotationPlane (⟨![1, 0, 0], true⟩ : Vec 3) ⟨![1, 1, 0], true⟩ 1 = .ok m ∧
    RotMat.rotationPlane (⟨![1, 0, 0], true⟩ : Vec 3) ⟨![1, 1, 0], true⟩ 2 = .ok m' ∧
    RotMat.rotationPlane (⟨![1, 0, 0], true⟩ : Vec 3) ⟨![1, 1, 0], true⟩ (1 + 2) = .ok m'' ∧ IsRotation m ∧ m.elem * m'.elem = m''.elem := by
  obtain ⟨m, hm⟩ := plane_ok
  obtain ⟨m', hm'⟩ := C42_plane_defined _ _ 1 2 m hm
  obtain ⟨m'', hm''⟩ := C42_plane_defined _ _ 1 (1 + 2) m hm
  have h := C42_plane _ _ 1 2 m m' m'' plane_exact hm hm' hm''
  exact ⟨m, m', m'', hm, hm', hm'', h.1, h.2.2.1⟩
theorem fromTo_bound : epsilon ≤ ((⟨![1, 0, 0], true⟩ : Vec 3).elem ⬝ᵥ (⟨![1, 1, 0], true⟩ : Vec 3).elem)
      / ((⟨![1, 0, 0], true⟩ : Vec 3).mag * (⟨![1, 1, 0], true⟩ : Vec 3).mag) + 1 := by
  have h3 := epsilon_lt
  have : (⟨![1, 0, 0], true⟩ : Vec 3).elem ⬝ᵥ (⟨![1, 1, 0], true⟩ : Vec 3).elem = 1 := by
    simp [dotProduct, Fin.sum_univ_three]
  rw [this]
  have := mul_nonneg (Vec.mag_nonneg (⟨![1, 0, 0], true⟩ : Vec 3)) (Vec.mag_nonneg (⟨![1, 1, 0], true⟩ : Vec 3))
  have := one_div_nonneg.2 this
  norm_num at h3
  linarith
example : ∃ m, RotMat.rotationFromTo (⟨![1, 0, 0], true⟩ : Vec 3) ⟨![1, 1, 0], true⟩ = .ok m ∧ IsRotation m ∧ m.flip = false := by
  obtain ⟨m, hm⟩ := (C43_defined _ _ (fun h => by simpa using congrFun h 0) (fun h => by simpa using congrFun h 0) plane_exact).1 fromTo_bound
  have h := C43_partial _ _ m plane_exact fromTo_bound hm
  exact ⟨m, hm, h.1, h.2.1⟩
example : ∃ m, RotMat.mirrorDir (⟨![1, 2, 2], true⟩ : Vec 3) = some m ∧ IsRotation m ∧ (![1, 2, 2] : Fin 3 → ℝ) ᵥ* m.elem = -![1, 2, 2] := by
  obtain ⟨m, hm⟩ := Option.isSome_iff_exists.1 ((C44_direction_defined (⟨![1, 2, 2], true⟩ : Vec 3)).2 fun h => by have := congrFun h 0; simp at this)
  have h := C44_direction _ m hm
  exact ⟨m, hm, h.1, h.2.2.2.2.1⟩

/-! ### Props/RotNormalize -/

example (L : Gauss.Limits) := C45_fixed L turnB turnB_rotation
example (L : Gauss.Limits) (m : RotMat 3) := C46_orthogonal L 5 m turnB.elem (1 / 10) (by norm_num [abs_of_pos]) turnB_rotation.1
example := C46_parity_limits turnB.elem turnB_rotation.1
example (L : Gauss.Limits) (m : RotMat 3) : ∃ m', RotMat.setVals L 6 m turnB.elem (1 / 10) = some (m', true) ∧
    ∀ i j, |(m'.elem * m'.elemᵀ - 1) i j| ≤ epsilon := by
  obtain ⟨m', h, -⟩ := C46_orthogonal L 5 m turnB.elem (1 / 10) (by norm_num [abs_of_pos]) turnB_rotation.1
  exact ⟨m', h, ((C46_accepts L 6 m m' _ _ true h).1 rfl).2.2.1⟩

/-! ### Props/Stream, Props/StreamPoly -/

example (v : Vec 3) := C76_vector unaryIO_printsBack 'x' v [' ', ' '] ['!'] (by decide)
example (b : Box 3) := C77_box unaryIO_printsBack 'x' b ['!']
example (s : Seg 3) := C77_segment unaryIO_printsBack 'x' s ['!']
theorem unary_space : ∀ t, unaryIO.parse (' ' :: t) = unaryIO.parse t := by intro t; simp [unaryIO, white]
example (b b' : Ball 3) := C77_ball unaryIO_printsBack unary_space 'x' b b' [')'] (by simp)
theorem unary_identity : (Matrix.of fun i j => ((⌊(RotMat.identity : RotMat 3).elem i j⌋₊ : ℕ) : ℝ) : Matrix (Fin 3) (Fin 3) ℝ) *
    (Matrix.of fun i j => ((⌊(RotMat.identity : RotMat 3).elem i j⌋₊ : ℕ) : ℝ))ᵀ = 1 := by
  have e : (Matrix.of fun i j => ((⌊(RotMat.identity : RotMat 3).elem i j⌋₊ : ℕ) : ℝ) : Matrix (Fin 3) (Fin 3) ℝ) = 1 := by
    ext i j
    by_cases h : i = j
    · subst h; simp [RotMat.identity]
    · simp [RotMat.identity, h, Matrix.one_apply]
  rw [e]; simp
example (L : Gauss.Limits) (m0 : RotMat 3) := C77_matrix unaryIO_printsBack L 4 'x' 6 (by norm_num) RotMat.identity m0 [' '] ['!'] (by decide) unary_identity
example (L : Gauss.Limits) (m m0 : RotMat 3) := C77_matrix_general unaryIO_printsBack L 'x' 6 m m0 [' '] ['!'] (by decide)
example (L : Gauss.Limits) (r0 : RBox 3) := C77_rotbox unaryIO_printsBack L 4 'x' 6 (by norm_num) ⟨⟨![1, 2, 3], true⟩, ⟨![4, 5, 6], true⟩, RotMat.identity⟩ r0 ['!']
  unary_identity
example (r : Poly 3) := C77_polygon3_partial unaryIO_printsBack 'x' 6 threeCorners r 5 (by norm_num) ['!'] (by simp [Poly.numCorners, threeCorners]) (fun i hi => by
  interval_cases i <;> simp [threeCorners, Poly.getCorner, Corners.getCorner, Orient.convert, Option.bind])

/-! ### Props/Time -/

section
open Time
example := C03_constructor 5 (-300000) (by norm_num) (by norm_num)
example : ((⟨5, 900000, true⟩ : TimeStamp).add ⟨true, 1, 200000⟩).diff ⟨5, 900000, true⟩ = ⟨true, 1, 200000⟩ :=
  C04_add_then_difference _ _ rfl rfl (by unfold Spec.Normal; decide) (by unfold Spec.Normal; decide)
example : ((⟨5, 100000, true⟩ : TimeStamp).sub ⟨true, 1, 200000⟩).add ⟨true, 1, 200000⟩ = ⟨5, 100000, true⟩ :=
  C04_sub_then_add _ _ rfl rfl (by unfold Spec.Normal; decide) (by unfold Spec.Normal; decide)
example := C04_difference_then_add ⟨5, 100000, true⟩ ⟨7, 900000, true⟩ rfl rfl (by unfold Spec.Normal; decide) (by unfold Spec.Normal; decide)
example := C05_diff_order ⟨true, 1, 200000⟩ ⟨true, -1, 999999⟩ (by unfold Spec.Normal; decide) (by unfold Spec.Normal; decide)
example := C05_stamp_order ⟨5, 100000, true⟩ ⟨7, 900000, true⟩ (by unfold Spec.Normal; decide) (by unfold Spec.Normal; decide)
example := C05_add_monotone ⟨5, 100000, true⟩ ⟨7, 900000, true⟩ ⟨true, 1, 200000⟩ rfl rfl rfl (by unfold Spec.Normal; decide) (by unfold Spec.Normal; decide) (by unfold Spec.Normal; decide)
end

end WFMath.Cases
