/- Property theorems C58: `BoundingSphere`. -/
import Verif.Lemmas.Miniball
import Verif.Spec.Miniball

namespace WFMath
open Spec Miniball
variable {n : Nat}

/-- The set of points of a list. -/
def pointSet (l : List (Pt n)) : Set (Fin n → ℝ) := {x | ∃ p ∈ l, p.elem = x}

theorem mem_pointSet (l : List (Pt n)) (x : Fin n → ℝ) : x ∈ pointSet l ↔ x ∈ l.map Pt.elem := by
  simp [pointSet]

theorem dsq_eucl (x y : Fin n → ℝ) : dsq x y = eucl x y ^ 2 := (eucl_sq x y).symm

theorem spread_of {l : List (Pt n)} {R : ℝ} (h : WellSpread (pointSet l) R) : Spread {x | x ∈ l.map Pt.elem} (R ^ 2) := by
  intro Q hQ hne p hp hna x hx
  have := h {q | q ∈ Q} (fun q hq => (mem_pointSet l q).2 (hQ q hq)) (List.exists_mem_of_ne_nil Q hne) p ((mem_pointSet l p).2 hp) hna x hx
  rw [← dsq_eucl, div_pow] at this
  unfold pushEps
  have e : ((10 : ℝ) ^ 32)⁻¹ * R ^ 2 = R ^ 2 / (10 ^ 16) ^ 2 := by rw [← pow_mul]; ring
  rw [e]; exact this

theorem smallest_of {pts : List (Fin n → ℝ)} (hne : pts ≠ []) {c : Fin n → ℝ} {ρ : ℝ} (h : MB pts [] c ρ) (v : Bool) :
    IsSmallest {x | x ∈ pts} (Ball.mk' ⟨c, v⟩ (Real.sqrt ρ)) ∧ (Ball.mk' ⟨c, v⟩ (Real.sqrt ρ)).center = ⟨c, v⟩ := by
  obtain ⟨p0, hp0⟩ := List.exists_mem_of_ne_nil _ hne
  have hρ : 0 ≤ ρ := (dsq_nonneg p0 c).trans (h.1.1 p0 hp0)
  have hc : (Ball.mk' ⟨c, v⟩ (Real.sqrt ρ)).center = ⟨c, v⟩ := by
    unfold Ball.mk'
    simp only
    rw [if_neg (not_lt.2 (Real.sqrt_nonneg _))]
  refine ⟨⟨fun p hp => ?_, fun c' r hr => ?_⟩, hc⟩
  · show eucl p (Ball.mk' ⟨c, v⟩ (Real.sqrt ρ)).center.elem ≤ Real.sqrt ρ
    rw [hc, eucl_le_iff (Real.sqrt_nonneg _), Real.sq_sqrt hρ]
    exact h.1.1 p hp
  · show Real.sqrt ρ ≤ r
    have hr0 : 0 ≤ r := (eucl_nonneg p0 c').trans (hr p0 hp0)
    rw [Real.sqrt_le_left hr0]
    exact h.2 c' (r ^ 2) ⟨fun p hp => (eucl_le_iff hr0).1 (hr p hp), by simp⟩

theorem built {l : List (Pt n)} (hne : l ≠ []) {R : ℝ} (hR : ∃ c : Fin n → ℝ, ∀ x ∈ pointSet l, eucl x c ≤ R) (hS : WellSpread (pointSet l) R)
    {fuel : Nat} (hf : 2 ^ l.length ≤ fuel) :
    ∃ st, build fuel (l.map Pt.elem) = some st ∧ Inv (l.map Pt.elem) st ∧ MB (l.map Pt.elem) [] st.B.curC st.B.curR := by
  obtain ⟨c, hc⟩ := hR
  obtain ⟨p0, hp0⟩ := List.exists_mem_of_ne_nil _ hne
  have hR0 : 0 ≤ R := (eucl_nonneg _ _).trans (hc p0.elem ⟨p0, hp0, rfl⟩)
  exact build_spec (by simpa using hne) (spread_of hS) (c := c) (ρ := R ^ 2)
    ⟨fun p hp => (eucl_le_iff hR0).1 (hc p ((mem_pointSet l p).2 hp)), by simp⟩ le_rfl (by rw [List.length_map]; exact hf)

theorem pointSet_eq (l : List (Pt n)) : pointSet l = {x | x ∈ l.map Pt.elem} := Set.ext (mem_pointSet l)

/-- C58 without the assertions: for points that are nowhere nearly, but not exactly, in a flat, the result is the smallest enclosing ball.
`R` is the radius of some enclosing ball. -/
theorem C58_unchecked_partial (l : List (Pt n)) (hne : l ≠ []) (R : ℝ) (hR : ∃ c : Fin n → ℝ, ∀ x ∈ pointSet l, eucl x c ≤ R)
    (hS : WellSpread (pointSet l) R) (fuel : Nat) (hf : 2 ^ l.length ≤ fuel) :
    ∃ b, boundingSphere false fuel l = some b ∧ IsSmallest (pointSet l) b ∧ b.center.valid = l.all Pt.valid := by
  obtain ⟨st, h1, -, h3⟩ := built hne hR hS hf
  obtain ⟨h4, h5⟩ := smallest_of (by simpa using hne) h3 (l.all Pt.valid)
  refine ⟨_, ?_, by rw [pointSet_eq]; exact h4, by rw [h5]⟩
  unfold boundingSphere
  rw [h1]; rfl

theorem maxError_zero {l : List (Fin n → ℝ)} {st : State n} (hI : Inv l st) (hM : MB l [] st.B.curC st.B.curR) : maxError st = 0 := by
  have f1 : ∀ (l : List (Fin n → ℝ)), (∀ p ∈ l, st.B.excess p = 0) →
      l.foldl (fun m p => if |st.B.excess p| > m then |st.B.excess p| else m) 0 = 0 := by
    intro l
    induction l with
    | nil => intro _; rfl
    | cons a l ih =>
      intro h
      rw [List.foldl_cons, h a (by simp), abs_zero, if_neg (lt_irrefl _)]
      exact ih fun p hp => h p (by simp [hp])
  have f2 : ∀ (l : List (Fin n → ℝ)), (∀ p ∈ l, st.B.excess p ≤ 0) →
      l.foldl (fun m p => if st.B.excess p > m then st.B.excess p else m) 0 = 0 := by
    intro l
    induction l with
    | nil => intro _; rfl
    | cons a l ih =>
      intro h
      rw [List.foldl_cons, if_neg (not_lt.2 (h a (by simp)))]
      exact ih fun p hp => h p (by simp [hp])
  unfold maxError
  simp only
  rw [f1 _ (fun p hp => ?_), f2 _ (fun p hp => ?_)]
  · rw [excess_eq, sub_nonpos]
    exact hM.1.1 p (hI.perm.mem_iff.1 (List.mem_of_mem_drop hp))
  · rw [List.take_append_of_le_length hI.le] at hp
    rw [excess_eq, hI.bd p hp, sub_self]

/-- C58: for points that are nowhere nearly, but not exactly, in a flat, and not all equal, the assertions hold and the result is the smallest
enclosing ball. -/
theorem C58_smallest_partial (l : List (Pt n)) (hd : ∃ x ∈ pointSet l, ∃ y ∈ pointSet l, x ≠ y) (R : ℝ)
    (hR : ∃ c : Fin n → ℝ, ∀ x ∈ pointSet l, eucl x c ≤ R) (hS : WellSpread (pointSet l) R) (fuel : Nat) (hf : 2 ^ l.length ≤ fuel) :
    ∃ b, boundingSphere true fuel l = some b ∧ IsSmallest (pointSet l) b ∧ b.center.valid = l.all Pt.valid := by
  obtain ⟨x, hx, y, hy, hxy⟩ := hd
  have hne : l ≠ [] := fun h => by rw [h] at hx; obtain ⟨p, hp, -⟩ := hx; simp at hp
  obtain ⟨st, h1, h2, h3⟩ := built hne hR hS hf
  obtain ⟨h4, h5⟩ := smallest_of (by simpa using hne) h3 (l.all Pt.valid)
  refine ⟨_, ?_, by rw [pointSet_eq]; exact h4, by rw [h5]⟩
  have hr : st.B.curR ≠ 0 := fun h0 => by
    refine hxy ?_
    have e1 := h3.1.1 x ((mem_pointSet l x).1 hx)
    have e2 := h3.1.1 y ((mem_pointSet l y).1 hy)
    rw [h0] at e1 e2
    rw [dsq_eq_zero (le_antisymm e1 (dsq_nonneg _ _)), dsq_eq_zero (le_antisymm e2 (dsq_nonneg _ _))]
  unfold boundingSphere
  rw [h1]
  simp only
  rw [if_neg]
  rw [maxError_zero h2 h3, zero_div, h2.s]
  simp [hr, epsilon_pos]

/-- C58: the result does not depend on the order in which the points are given, nor on repetitions. -/
theorem C58_order_partial (l l' : List (Pt n)) (hl : pointSet l = pointSet l') (hne : l ≠ []) (R : ℝ)
    (hR : ∃ c : Fin n → ℝ, ∀ x ∈ pointSet l, eucl x c ≤ R) (hS : WellSpread (pointSet l) R) (fuel : Nat)
    (hf : 2 ^ l.length ≤ fuel) (hf' : 2 ^ l'.length ≤ fuel) :
    ∃ b b', boundingSphere false fuel l = some b ∧ boundingSphere false fuel l' = some b' ∧ b.center.elem = b'.center.elem ∧ b.radius = b'.radius := by
  have hne' : l' ≠ [] := fun h => by
    obtain ⟨p, hp⟩ := List.exists_mem_of_ne_nil _ hne
    have : p.elem ∈ pointSet l' := hl ▸ ⟨p, hp, rfl⟩
    rw [h] at this
    obtain ⟨q, hq, -⟩ := this
    simp at hq
  obtain ⟨st, h1, -, h3⟩ := built hne hR hS hf
  obtain ⟨st', h1', -, h3'⟩ := built hne' (hl ▸ hR) (hl ▸ hS) hf'
  have h3'' : MB (l.map Pt.elem) [] st'.B.curC st'.B.curR := h3'.congr fun p => by
    rw [← mem_pointSet, ← mem_pointSet, hl]
  obtain ⟨e1, e2⟩ := h3.unique h3''
  obtain ⟨-, h5⟩ := smallest_of (by simpa using hne) h3 (l.all Pt.valid)
  obtain ⟨-, h5'⟩ := smallest_of (by simpa using hne') h3' (l'.all Pt.valid)
  refine ⟨Ball.mk' ⟨st.B.curC, l.all Pt.valid⟩ (Real.sqrt st.B.curR), Ball.mk' ⟨st'.B.curC, l'.all Pt.valid⟩ (Real.sqrt st'.B.curR), ?_, ?_, ?_, ?_⟩
  · unfold boundingSphere; rw [h1]; rfl
  · unfold boundingSphere; rw [h1']; rfl
  · rw [h5, h5']; exact e1
  · show Real.sqrt _ = Real.sqrt _
    rw [e2]

/-- C58, any points: a ball that is returned with the assertions compiled in contains every point up to a relative error of epsilon in the
square of the distance. -/
theorem C58_encloses (fuel : Nat) (l : List (Pt n)) (b : Ball n) (h : boundingSphere true fuel l = some b) (p : Pt n) (hp : p ∈ l) :
    eucl p.elem b.center.elem ^ 2 ≤ (1 + epsilon) * b.radius ^ 2 ∧ 0 < b.radius ∧ b.center.valid = l.all Pt.valid := by
  unfold boundingSphere at h
  match hb : build fuel (l.map Pt.elem) with
  | none => rw [hb] at h; simp at h
  | some st =>
    rw [hb] at h
    simp only at h
    split_ifs at h with hc
    obtain ⟨h0, hperm⟩ := build_any hb
    have hc' : st.s = st.B.s ∧ st.B.curR ≠ 0 ∧ maxError st / st.B.curR < epsilon := by
      rw [Bool.true_and, Bool.not_eq_true', Bool.not_eq_false, Bool.and_eq_true, beq_iff_eq, decide_eq_true_eq] at hc
      exact hc
    have hpos : 0 < st.B.curR := lt_of_le_of_ne h0 (Ne.symm hc'.2.1)
    have he := maxError_ge st p.elem (hperm.mem_iff.2 (List.mem_map_of_mem hp))
    have hm := (div_lt_iff₀ hpos).1 hc'.2.2
    simp only [Option.some.injEq] at h
    subst h
    have hcc : (Ball.mk' ⟨st.B.curC, l.all Pt.valid⟩ (Real.sqrt st.B.curR)).center = ⟨st.B.curC, l.all Pt.valid⟩ := by
      unfold Ball.mk'
      simp only
      rw [if_neg (not_lt.2 (Real.sqrt_nonneg _))]
    rw [hcc]
    refine ⟨?_, Real.sqrt_pos.2 hpos, rfl⟩
    show eucl p.elem st.B.curC ^ 2 ≤ (1 + epsilon) * Real.sqrt st.B.curR ^ 2
    rw [← dsq_eucl, Real.sq_sqrt h0]
    rw [excess_eq] at he
    linarith

/-- C58 fails for a single point, and when all points are equal: with the assertions compiled in nothing is returned. -/
theorem C58_false (fuel : Nat) (l : List (Pt n)) (p : Pt n) (h : ∀ q ∈ l, q.elem = p.elem) : boundingSphere true fuel l = none := by
  match hr : boundingSphere true fuel l with
  | none => rfl
  | some b =>
    exfalso
    unfold boundingSphere at hr
    match l, h with
    | [], _ => simp [build] at hr
    | q :: ps, h =>
      have hb : ∀ k, build (k + 1) ((q :: ps).map Pt.elem) = some ⟨⟨p.elem, [], 1, p.elem, 0⟩, [p.elem], ps.map Pt.elem, 1⟩ := fun k => by
        show pivotLoop (k + 1) ⟨(mtf (n + 1) Basis.reset [q.elem]).1, (mtf (n + 1) Basis.reset [q.elem]).2.1, ps.map Pt.elem,
          (mtf (n + 1) Basis.reset [q.elem]).2.2⟩ = _
        rw [mtf_first, h q (by simp)]
        unfold pivotLoop
        match hm : (maxExcess (⟨p.elem, [], 1, p.elem, 0⟩ : Basis n) (ps.map Pt.elem)).2 with
        | none => simp only [hm]
        | some (x, i) =>
          exfalso
          obtain ⟨h1, h2⟩ := maxExcess_some hm
          obtain ⟨q', hq', rfl⟩ := List.mem_map.1 (List.mem_iff_getElem?.2 ⟨i, h2⟩)
          rw [h q' (by simp [hq'])] at h1
          rw [show dsq p.elem p.elem = 0 from dsq_self _] at h1
          exact lt_irrefl _ h1
      match fuel with
      | 0 =>
        have : build 0 ((q :: ps).map Pt.elem) = none := rfl
        rw [this] at hr; simp at hr
      | k + 1 =>
        rw [hb] at hr
        simp at hr

/-- C58, no points: nothing is returned, whatever is compiled in. -/
theorem C58_empty (c : Bool) (fuel : Nat) : boundingSphere (n := n) c fuel [] = none := rfl

/-! ### The hypotheses are met -/

theorem functional_aff {F : Set (Fin n → ℝ)} {g : Fin n → ℝ} {γ : ℝ} (h : ∀ q ∈ F, ∑ k, g k * q k = γ) {x : Fin n → ℝ} (hx : x ∈ affineSpan ℝ F) :
    ∑ k, g k * x k = γ := by
  refine affineSpan_induction (p := fun x : Fin n → ℝ => ∑ k, g k * x k = γ) hx h fun c u v w hu hv hw => ?_
  have : ∑ k, g k * (c • (u -ᵥ v) +ᵥ w) k = c * (∑ k, g k * u k - ∑ k, g k * v k) + ∑ k, g k * w k := by
    rw [← Finset.sum_sub_distrib, Finset.mul_sum, ← Finset.sum_add_distrib]
    exact Finset.sum_congr rfl fun k _ => by simp; ring
  rw [this, hu, hv, hw]; ring

/-- A bound of the distance from a flat in a hyperplane. -/
theorem far_of {F : Set (Fin n → ℝ)} {g : Fin n → ℝ} {γ : ℝ} (h : ∀ q ∈ F, ∑ k, g k * q k = γ) {x : Fin n → ℝ} (hx : x ∈ affineSpan ℝ F)
    (p : Fin n → ℝ) : (∑ k, g k * p k - γ) ^ 2 ≤ (∑ k, g k ^ 2) * eucl p x ^ 2 := by
  rw [← functional_aff h hx, eucl_sq, ← Finset.sum_sub_distrib]
  have := Finset.sum_mul_sq_le_sq_mul_sq Finset.univ g fun k => p k - x k
  simpa [mul_sub] using this

/-- A triangle. -/
def exTriangle : List (Pt 2) := [⟨![0, 0], true⟩, ⟨![4, 0], true⟩, ⟨![1, 2], true⟩]
theorem exTriangle_set (x : Fin 2 → ℝ) : x ∈ pointSet exTriangle ↔ x = ![0, 0] ∨ x = ![4, 0] ∨ x = ![1, 2] := by
  simp [pointSet, exTriangle, eq_comm]
theorem exTriangle_spread : WellSpread (pointSet exTriangle) 5 := by
  intro F hF hne p hp hna x hx
  have hpF : p ∉ F := fun h => hna (mem_affineSpan ℝ h)
  have hq : ∀ q ∈ F, (q = ![0, 0] ∨ q = ![4, 0] ∨ q = ![1, 2]) ∧ q ≠ p := fun q hq =>
    ⟨(exTriangle_set q).1 (hF hq), fun h => hpF (h ▸ hq)⟩
  rcases (exTriangle_set p).1 hp with rfl | rfl | rfl
  · have := far_of (g := ![2, 3]) (γ := 8) (fun q hqF => by
      obtain ⟨h1, h2⟩ := hq q hqF
      rcases h1 with rfl | rfl | rfl
      · exact absurd rfl h2
      · simp [Fin.sum_univ_two]; norm_num
      · simp [Fin.sum_univ_two]; norm_num) hx ![0, 0]
    simp [Fin.sum_univ_two] at this
    norm_num at this ⊢
    nlinarith
  · have := far_of (g := ![2, -1]) (γ := 0) (fun q hqF => by
      obtain ⟨h1, h2⟩ := hq q hqF
      rcases h1 with rfl | rfl | rfl
      · simp [Fin.sum_univ_two]
      · exact absurd rfl h2
      · simp [Fin.sum_univ_two]) hx ![4, 0]
    simp [Fin.sum_univ_two] at this
    norm_num at this ⊢
    nlinarith
  · have := far_of (g := ![0, 1]) (γ := 0) (fun q hqF => by
      obtain ⟨h1, h2⟩ := hq q hqF
      rcases h1 with rfl | rfl | rfl
      · simp [Fin.sum_univ_two]
      · simp [Fin.sum_univ_two]
      · exact absurd rfl h2) hx ![1, 2]
    simp [Fin.sum_univ_two] at this
    norm_num at this ⊢
    nlinarith

example : ∃ b, boundingSphere true 8 exTriangle = some b ∧ IsSmallest (pointSet exTriangle) b ∧ b.center.valid = true := by
  refine C58_smallest_partial exTriangle ⟨![0, 0], (exTriangle_set _).2 (by simp), ![4, 0], (exTriangle_set _).2 (by simp), fun h => ?_⟩ 5
    ⟨![0, 0], fun x hx => ?_⟩ exTriangle_spread 8 (by simp [exTriangle])
  · have := congrFun h 0
    simp at this
  · rw [eucl_le_iff (by norm_num)]
    rcases (exTriangle_set x).1 hx with rfl | rfl | rfl <;> simp [Fin.sum_univ_two] <;> norm_num

end WFMath
