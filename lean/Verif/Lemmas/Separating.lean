/- Lemmas for the separating axis test: Helly's theorem for the slabs of two boxes, and projections of boxes on an axis. -/
import Verif.Lemmas.RotBox
import Mathlib.Analysis.Convex.Radon

namespace WFMath
open Spec Matrix Gauss
variable {n : Nat}

/-! ### Helly -/

theorem helly2 {F : Fin 2 ⊕ Fin 2 → Set (Fin 2 → ℝ)} (hc : ∀ i, Convex ℝ (F i)) (h : ∀ p, ∃ x, ∀ i, i ≠ p → x ∈ F i) :
    ∃ x, ∀ i, x ∈ F i := by
  have := Convex.helly_theorem (𝕜 := ℝ) (F := F) (s := Finset.univ) (by simp) (fun i _ => hc i) (fun I _ hI => by
    have h1 : (Iᶜ).card = 1 := by rw [Finset.card_compl, hI]; simp
    obtain ⟨p, hp⟩ := Finset.card_eq_one.1 h1
    obtain ⟨x, hx⟩ := h p
    refine ⟨x, Set.mem_iInter₂.2 fun i hi => hx i fun e => ?_⟩
    have : p ∈ Iᶜ := by rw [hp]; exact Finset.mem_singleton_self _
    exact Finset.mem_compl.1 this (e ▸ hi))
  obtain ⟨x, hx⟩ := this
  exact ⟨x, fun i => Set.mem_iInter₂.1 hx i (Finset.mem_univ _)⟩

theorem helly3 {F : Fin 3 ⊕ Fin 3 → Set (Fin 3 → ℝ)} (hc : ∀ i, Convex ℝ (F i))
    (h : ∀ p q, p ≠ q → ∃ x, ∀ i, i ≠ p → i ≠ q → x ∈ F i) : ∃ x, ∀ i, x ∈ F i := by
  have := Convex.helly_theorem (𝕜 := ℝ) (F := F) (s := Finset.univ) (by simp) (fun i _ => hc i) (fun I _ hI => by
    have h1 : (Iᶜ).card = 2 := by rw [Finset.card_compl, hI]; simp
    obtain ⟨p, q, hpq, hp⟩ := Finset.card_eq_two.1 h1
    obtain ⟨x, hx⟩ := h p q hpq
    have hpI : p ∈ Iᶜ := by rw [hp]; simp
    have hqI : q ∈ Iᶜ := by rw [hp]; simp
    exact ⟨x, Set.mem_iInter₂.2 fun i hi => hx i (fun e => Finset.mem_compl.1 hpI (e ▸ hi)) fun e =>
      Finset.mem_compl.1 hqI (e ▸ hi)⟩)
  obtain ⟨x, hx⟩ := this
  exact ⟨x, fun i => Set.mem_iInter₂.1 hx i (Finset.mem_univ _)⟩

theorem convex_slab {I : Set ℝ} (hI : Convex ℝ I) (j : Fin n) : Convex ℝ {x : Fin n → ℝ | x j ∈ I} :=
  fun x hx y hy _ _ ha hb hab => hI hx hy ha hb hab
theorem convex_turned (r : RBox n) {J : Set ℝ} (hJ : Convex ℝ J) (k : Fin n) : Convex ℝ {x : Fin n → ℝ | turn r x k ∈ J} := by
  intro x hx y hy a b ha hb hab
  have : turn r (a • x + b • y) = a • turn r x + b • turn r y := by
    rw [eq_sub_of_add_eq hab]; exact turn_affine r x y b
  show turn r (a • x + b • y) k ∈ J
  rw [this]
  exact hJ hx hy ha hb hab

/-- What adding a vector does to the turned point. -/
theorem turn_add (r : RBox n) (x v : Fin n → ℝ) : turn r (x + v) = turn r x + r.orient.elem *ᵥ v := by
  have := turn_sub r (x + v) x
  rw [add_sub_cancel_left] at this
  rw [← this]; abel

theorem mulVec_row {m : RotMat n} (hm : IsRotation m) (i : Fin n) : m.elem *ᵥ m.elem i = Pi.single i 1 := by
  have h : m.elem i = Pi.single i 1 ᵥ* m.elem := by rw [single_one_vecMul]; rfl
  rw [h, ← mulVec_transpose, mulVec_mulVec, hm.orth, one_mulVec]

/-! ### The plane -/

theorem sat2 {r : RBox 2} {I J : Fin 2 → Set ℝ} (hI : ∀ j, Convex ℝ (I j)) (hJ : ∀ k, Convex ℝ (J k))
    (F1 : ∀ k, ∃ x : Fin 2 → ℝ, (∀ j, x j ∈ I j) ∧ turn r x k ∈ J k)
    (F2 : ∀ j, ∃ x : Fin 2 → ℝ, (∀ k, turn r x k ∈ J k) ∧ x j ∈ I j) :
    ∃ x : Fin 2 → ℝ, (∀ j, x j ∈ I j) ∧ ∀ k, turn r x k ∈ J k := by
  have other : ∀ p : Fin 2, ∃ q, ∀ i, i ≠ p → i = q := by decide
  obtain ⟨x, hx⟩ := helly2 (F := Sum.elim (fun j => {x | x j ∈ I j}) fun k => {x | turn r x k ∈ J k})
    (by rintro (j | k); exacts [convex_slab (hI j) j, convex_turned r (hJ k) k]) (by
      rintro (p | p)
      · obtain ⟨q, hq⟩ := other p
        obtain ⟨x, h1, h2⟩ := F2 q
        refine ⟨x, ?_⟩
        rintro (j | k) h
        · have : j = q := hq j fun e => h (by rw [e])
          rw [this]; exact h2
        · exact h1 k
      · obtain ⟨q, hq⟩ := other p
        obtain ⟨x, h1, h2⟩ := F1 q
        refine ⟨x, ?_⟩
        rintro (j | k) h
        · exact h1 j
        · have : k = q := hq k fun e => h (by rw [e])
          rw [this]; exact h2)
  exact ⟨x, fun j => hx (.inl j), fun k => hx (.inr k)⟩

/-! ### Space -/

/-- The normal tried for edge `i` and axis `j` is the cross product of the edge direction and the axis, up to sign: its
component along the axis vanishes and the other two are those of the edge. -/
theorem satAxis_elem (m : RotMat 3) (i j : Fin 3) : (satAxis m i j).elem j = 0 ∧
    (satAxis m i j).elem (j + 1) = -m.elem i (j + 2) ∧ (satAxis m i j).elem (j + 2) = m.elem i (j + 1) := by
  fin_cases j <;> simp [satAxis, Matrix.vecHead, Matrix.vecTail] <;> rfl

theorem sum3 (f : Fin 3 → ℝ) (j : Fin 3) : ∑ i, f i = f j + f (j + 1) + f (j + 2) := by
  rw [Fin.sum_univ_three]
  fin_cases j
  · rfl
  · show f 0 + f 1 + f 2 = f 1 + f 2 + f 0; ring
  · show f 0 + f 1 + f 2 = f 2 + f 0 + f 1; ring

theorem fin3_cases (j a : Fin 3) : a = j ∨ a = j + 1 ∨ a = j + 2 := by revert j a; decide

/-- The normal is perpendicular to the edge. -/
theorem satAxis_perp (m : RotMat 3) (i j : Fin 3) : m.elem i ⬝ᵥ (satAxis m i j).elem = 0 := by
  obtain ⟨h0, h1, h2⟩ := satAxis_elem m i j
  unfold dotProduct
  rw [sum3 _ j, h0, h1, h2]; ring

theorem sat_edges {r : RBox 3} (hm : IsRotation r.orient) {i j : Fin 3} {x y : Fin 3 → ℝ}
    (hn : (satAxis r.orient i j).elem ≠ 0) (he : (satAxis r.orient i j).elem ⬝ᵥ (x - y) = 0) :
    ∃ z, (∀ j', j' ≠ j → z j' = x j') ∧ ∀ k, k ≠ i → turn r z k = turn r y k := by
  obtain ⟨h0, h1, h2⟩ := satAxis_elem r.orient i j
  set u := r.orient.elem i with hu
  have hD : u (j + 1) ^ 2 + u (j + 2) ^ 2 ≠ 0 := fun h => by
    have e1 : u (j + 1) = 0 := by nlinarith [sq_nonneg (u (j + 1)), sq_nonneg (u (j + 2))]
    have e2 : u (j + 2) = 0 := by nlinarith [sq_nonneg (u (j + 1)), sq_nonneg (u (j + 2))]
    refine hn (funext fun a => ?_)
    rcases fin3_cases j a with rfl | rfl | rfl
    · exact h0
    · rw [h1, e2, neg_zero]; rfl
    · rw [h2, e1]; rfl
  unfold dotProduct at he
  rw [sum3 _ j, h0, h1, h2] at he
  simp only [Pi.sub_apply, zero_mul, zero_add] at he
  set β := ((x - y) (j + 1) * u (j + 1) + (x - y) (j + 2) * u (j + 2)) / (u (j + 1) ^ 2 + u (j + 2) ^ 2) with hβ
  have hβ' : β * (u (j + 1) ^ 2 + u (j + 2) ^ 2) = (x - y) (j + 1) * u (j + 1) + (x - y) (j + 2) * u (j + 2) :=
    div_mul_cancel₀ _ hD
  simp only [Pi.sub_apply] at hβ'
  refine ⟨y + β • u, fun j' hj' => ?_, fun k hk => ?_⟩
  · rcases fin3_cases j j' with rfl | rfl | rfl
    · exact absurd rfl hj'
    · simp only [Pi.add_apply, Pi.smul_apply, smul_eq_mul]
      refine mul_right_cancel₀ hD ?_
      linear_combination u (j + 1) * hβ' + u (j + 2) * he
    · simp only [Pi.add_apply, Pi.smul_apply, smul_eq_mul]
      refine mul_right_cancel₀ hD ?_
      linear_combination u (j + 2) * hβ' - u (j + 1) * he
  · rw [turn_add, mulVec_smul, hu, mulVec_row hm]
    simp [hk]

/-- A vanishing normal: the edge direction is the axis up to sign. -/
theorem satAxis_zero {m : RotMat 3} (hm : IsRotation m) {i j : Fin 3} (h : (satAxis m i j).elem = 0) :
    (∀ j', j' ≠ j → m.elem i j' = 0) ∧ ∀ k, k ≠ i → m.elem k j = 0 := by
  obtain ⟨-, h1, h2⟩ := satAxis_elem m i j
  rw [h] at h1 h2
  have e2 : m.elem i (j + 2) = 0 := by simpa using h1.symm
  have e1 : m.elem i (j + 1) = 0 := by simpa using h2.symm
  refine ⟨fun j' hj' => ?_, fun k hk => ?_⟩
  · rcases fin3_cases j j' with rfl | rfl | rfl
    · exact absurd rfl hj'
    · exact e1
    · exact e2
  · have h3 : (m.elem * m.elemᵀ) i i = 1 := by rw [hm.orth]; simp
    have h4 : (m.elem * m.elemᵀ) i k = 0 := by rw [hm.orth]; simp [Ne.symm hk]
    rw [Matrix.mul_apply, sum3 _ j] at h3 h4
    simp only [Matrix.transpose_apply, e1, e2, zero_mul, add_zero] at h3 h4
    rcases mul_eq_zero.1 h4 with h5 | h5
    · rw [h5] at h3; norm_num at h3
    · exact h5

/-- The two other indices. -/
def e3 (j0 : Fin 3) (a : Fin 2) : Fin 3 := if a = 0 then j0 + 1 else j0 + 2
/-- A point of the plane across axis `j0` at `s`. -/
def z3 (j0 : Fin 3) (s : ℝ) (w : Fin 2 → ℝ) (j : Fin 3) : ℝ := if j = j0 then s else if j = j0 + 1 then w 0 else w 1

theorem z3_self (j0 : Fin 3) (s : ℝ) (w : Fin 2 → ℝ) : z3 j0 s w j0 = s := if_pos rfl
theorem z3_other (j0 : Fin 3) (s : ℝ) (w : Fin 2 → ℝ) (a : Fin 2) : z3 j0 s w (e3 j0 a) = w a := by
  have n1 : ∀ j : Fin 3, j + 1 ≠ j := by decide
  have n2 : ∀ j : Fin 3, j + 2 ≠ j := by decide
  have n3 : ∀ j : Fin 3, j + 2 ≠ j + 1 := by decide
  fin_cases a
  · show (if j0 + 1 = j0 then s else if j0 + 1 = j0 + 1 then w 0 else w 1) = w 0
    rw [if_neg (n1 j0), if_pos rfl]
  · show (if j0 + 2 = j0 then s else if j0 + 2 = j0 + 1 then w 0 else w 1) = w 1
    rw [if_neg (n2 j0), if_neg (n3 j0)]
theorem e3_ne (j0 : Fin 3) (a : Fin 2) : e3 j0 a ≠ j0 := by revert j0 a; decide
theorem e3_cover (j0 j : Fin 3) (h : j ≠ j0) : ∃ a, j = e3 j0 a := by revert j0 j; decide
theorem z3_affine (j0 : Fin 3) (s : ℝ) (w w' : Fin 2 → ℝ) (a b : ℝ) (hab : a + b = 1) :
    z3 j0 s (a • w + b • w') = a • z3 j0 s w + b • z3 j0 s w' := by
  funext j
  simp only [z3, Pi.add_apply, Pi.smul_apply, smul_eq_mul]
  split_ifs
  · rw [← add_mul, hab, one_mul]
  · rfl
  · rfl

/-- The parallel case: in the plane across the common direction the faces decide. -/
theorem sat_parallel {r : RBox 3} (hm : IsRotation r.orient) {I J : Fin 3 → Set ℝ} (hI : ∀ j, Convex ℝ (I j)) (hJ : ∀ k, Convex ℝ (J k))
    (F1 : ∀ k, ∃ x : Fin 3 → ℝ, (∀ j, x j ∈ I j) ∧ turn r x k ∈ J k)
    (F2 : ∀ j, ∃ x : Fin 3 → ℝ, (∀ k, turn r x k ∈ J k) ∧ x j ∈ I j)
    {i0 j0 : Fin 3} (hz : (satAxis r.orient i0 j0).elem = 0) :
    ∃ x : Fin 3 → ℝ, (∀ j, x j ∈ I j) ∧ ∀ k, turn r x k ∈ J k := by
  obtain ⟨hrow, hcol⟩ := satAxis_zero hm hz
  -- what depends on the coordinate `j0`
  have t1 : ∀ x y : Fin 3 → ℝ, x j0 = y j0 → turn r x i0 = turn r y i0 := fun x y h => by
    have := congrFun (turn_sub r x y) i0
    have h0 : (r.orient.elem *ᵥ (x - y)) i0 = 0 := by
      show ∑ a : Fin 3, r.orient.elem i0 a * (x - y) a = 0
      refine Finset.sum_eq_zero fun a _ => ?_
      by_cases ha : a = j0
      · rw [ha, Pi.sub_apply, h, sub_self, mul_zero]
      · rw [show r.orient.elem i0 a = 0 from hrow a ha, zero_mul]
    rw [h0, Pi.sub_apply] at this
    linarith
  have t2 : ∀ x y : Fin 3 → ℝ, (∀ j, j ≠ j0 → x j = y j) → ∀ k, k ≠ i0 → turn r x k = turn r y k := fun x y h k hk => by
    have := congrFun (turn_sub r x y) k
    have h0 : (r.orient.elem *ᵥ (x - y)) k = 0 := by
      show ∑ a : Fin 3, r.orient.elem k a * (x - y) a = 0
      refine Finset.sum_eq_zero fun a _ => ?_
      by_cases ha : a = j0
      · rw [ha, show r.orient.elem k j0 = 0 from hcol k hk, zero_mul]
      · rw [Pi.sub_apply, h a ha, sub_self, mul_zero]
    rw [h0, Pi.sub_apply] at this
    linarith
  obtain ⟨x0, hx0, hy0⟩ := F1 i0
  -- the plane
  have hz' : ∀ x : Fin 3 → ℝ, ∀ j, j ≠ j0 → z3 j0 (x0 j0) (fun a => x (e3 j0 a)) j = x j := fun x j hj => by
    obtain ⟨a, rfl⟩ := e3_cover j0 j hj
    rw [z3_other]
  have other : ∀ p : Fin 2, ∃ q, ∀ i, i ≠ p → i = q := by decide
  obtain ⟨w, hw⟩ := helly2 (F := Sum.elim (fun a => {w | z3 j0 (x0 j0) w (e3 j0 a) ∈ I (e3 j0 a)}) fun a => {w | turn r (z3 j0 (x0 j0) w) (e3 i0 a) ∈ J (e3 i0 a)})
    (by
      rintro (a | a)
      · intro w hw w' hw' c d hc hd hcd
        show z3 j0 (x0 j0) _ (e3 j0 a) ∈ I (e3 j0 a)
        rw [z3_affine _ _ _ _ _ _ hcd]
        exact convex_slab (hI (e3 j0 a)) (e3 j0 a) hw hw' hc hd hcd
      · intro w hw w' hw' c d hc hd hcd
        show turn r (z3 j0 (x0 j0) _) (e3 i0 a) ∈ J (e3 i0 a)
        rw [z3_affine _ _ _ _ _ _ hcd]
        exact convex_turned r (hJ (e3 i0 a)) (e3 i0 a) hw hw' hc hd hcd) (by
      rintro (p | p)
      · obtain ⟨q, hq⟩ := other p
        obtain ⟨x, h1, h2⟩ := F2 (e3 j0 q)
        refine ⟨fun a => x (e3 j0 a), ?_⟩
        rintro (a | a) h
        · have : a = q := hq a fun e => h (by rw [e])
          show z3 j0 (x0 j0) _ (e3 j0 a) ∈ I (e3 j0 a)
          rw [z3_other, this]; exact h2
        · show turn r (z3 j0 (x0 j0) _) (e3 i0 a) ∈ J (e3 i0 a)
          rw [t2 _ x (hz' x) _ (e3_ne i0 a)]
          exact h1 _
      · obtain ⟨q, hq⟩ := other p
        obtain ⟨x, h1, h2⟩ := F1 (e3 i0 q)
        refine ⟨fun a => x (e3 j0 a), ?_⟩
        rintro (a | a) h
        · show z3 j0 (x0 j0) _ (e3 j0 a) ∈ I (e3 j0 a)
          rw [z3_other]; exact h1 _
        · have : a = q := hq a fun e => h (by rw [e])
          show turn r (z3 j0 (x0 j0) _) (e3 i0 a) ∈ J (e3 i0 a)
          rw [t2 _ x (hz' x) _ (e3_ne i0 a), this]
          exact h2)
  refine ⟨z3 j0 (x0 j0) w, fun j => ?_, fun k => ?_⟩
  · by_cases hj : j = j0
    · rw [hj, z3_self]; exact hx0 j0
    · obtain ⟨a, rfl⟩ := e3_cover j0 j hj
      exact hw (.inl a)
  · by_cases hk : k = i0
    · rw [hk, t1 (z3 j0 (x0 j0) w) x0 (z3_self _ _ _)]; exact hy0
    · obtain ⟨a, rfl⟩ := e3_cover i0 k hk
      exact hw (.inr a)

/-- The fifteen axes suffice: from common points along the face normals and along the nine cross products to a common point. -/
theorem sat3 {r : RBox 3} (hm : IsRotation r.orient) {I J : Fin 3 → Set ℝ} (hI : ∀ j, Convex ℝ (I j)) (hJ : ∀ k, Convex ℝ (J k))
    (F1 : ∀ k, ∃ x : Fin 3 → ℝ, (∀ j, x j ∈ I j) ∧ turn r x k ∈ J k)
    (F2 : ∀ j, ∃ x : Fin 3 → ℝ, (∀ k, turn r x k ∈ J k) ∧ x j ∈ I j)
    (E : ∀ i j, (satAxis r.orient i j).elem ≠ 0 → ∃ x y : Fin 3 → ℝ, (∀ j, x j ∈ I j) ∧ (∀ k, turn r y k ∈ J k) ∧
      (satAxis r.orient i j).elem ⬝ᵥ (x - y) = 0) :
    ∃ x : Fin 3 → ℝ, (∀ j, x j ∈ I j) ∧ ∀ k, turn r x k ∈ J k := by
  by_cases hp : ∃ i j, (satAxis r.orient i j).elem = 0
  · obtain ⟨i, j, h⟩ := hp
    exact sat_parallel hm hI hJ F1 F2 h
  push Not at hp
  have third : ∀ p q : Fin 3, p ≠ q → ∃ j, ∀ i, i ≠ p → i ≠ q → i = j := by decide
  have mixed : ∀ i j : Fin 3, ∃ z : Fin 3 → ℝ, (∀ j', j' ≠ j → z j' ∈ I j') ∧ ∀ k, k ≠ i → turn r z k ∈ J k := fun i j => by
    obtain ⟨x, y, hx, hy, he⟩ := E i j (hp i j)
    obtain ⟨z, h1, h2⟩ := sat_edges hm (hp i j) he
    exact ⟨z, fun j' hj' => by rw [h1 j' hj']; exact hx j', fun k hk => by rw [h2 k hk]; exact hy k⟩
  obtain ⟨x, hx⟩ := helly3 (F := Sum.elim (fun j => {x | x j ∈ I j}) fun k => {x | turn r x k ∈ J k})
    (by rintro (j | k); exacts [convex_slab (hI j) j, convex_turned r (hJ k) k]) (by
      rintro (p | p) (q | q) hpq
      · obtain ⟨j, hj⟩ := third p q fun e => hpq (by rw [e])
        obtain ⟨x, h1, h2⟩ := F2 j
        refine ⟨x, ?_⟩
        rintro (a | a) ha hb
        · rw [hj a (fun e => ha (by rw [e])) fun e => hb (by rw [e])]; exact h2
        · exact h1 a
      · obtain ⟨z, h1, h2⟩ := mixed q p
        refine ⟨z, ?_⟩
        rintro (a | a) ha hb
        · exact h1 a fun e => ha (by rw [e])
        · exact h2 a fun e => hb (by rw [e])
      · obtain ⟨z, h1, h2⟩ := mixed p q
        refine ⟨z, ?_⟩
        rintro (a | a) ha hb
        · exact h1 a fun e => hb (by rw [e])
        · exact h2 a fun e => ha (by rw [e])
      · obtain ⟨j, hj⟩ := third p q fun e => hpq (by rw [e])
        obtain ⟨x, h1, h2⟩ := F1 j
        refine ⟨x, ?_⟩
        rintro (a | a) ha hb
        · exact h1 a
        · rw [hj a (fun e => ha (by rw [e])) fun e => hb (by rw [e])]; exact h2)
  exact ⟨x, fun j => hx (.inl j), fun k => hx (.inr k)⟩

/-! ### Projections -/

/-- The values of `∑ t i * v i` for `t i` between 0 and 1. -/
theorem proj_closed (v : Fin n → ℝ) {y : ℝ} (h1 : ∑ i, min 0 (v i) ≤ y) (h2 : y ≤ ∑ i, max 0 (v i)) :
    ∃ t : Fin n → ℝ, (∀ i, 0 ≤ t i ∧ t i ≤ 1) ∧ ∑ i, t i * v i = y := by
  set L := ∑ i, min 0 (v i)
  set H := ∑ i, max 0 (v i)
  by_cases hLH : L = H
  · refine ⟨fun i => if v i < 0 then 1 else 0, fun i => by simp only; split_ifs <;> norm_num, ?_⟩
    have : ∑ i, (if v i < 0 then (1 : ℝ) else 0) * v i = L := by
      refine Finset.sum_congr rfl fun i _ => ?_
      split_ifs with h
      · rw [min_eq_right h.le, one_mul]
      · rw [min_eq_left (not_lt.1 h), zero_mul]
    rw [this]; linarith
  · have hlt : 0 < H - L := by
      have : L ≤ H := h1.trans h2
      exact sub_pos.2 (lt_of_le_of_ne this hLH)
    set s := (y - L) / (H - L) with hs
    have hs0 : 0 ≤ s := div_nonneg (by linarith) hlt.le
    have hs1 : s ≤ 1 := by rw [hs, div_le_one hlt]; linarith
    refine ⟨fun i => if v i < 0 then 1 - s else s, fun i => by simp only; split_ifs <;> constructor <;> linarith, ?_⟩
    have : ∑ i, (if v i < 0 then 1 - s else s) * v i = L + s * (H - L) := by
      simp only [L, H]
      rw [← Finset.sum_sub_distrib, Finset.mul_sum, ← Finset.sum_add_distrib]
      refine Finset.sum_congr rfl fun i _ => ?_
      split_ifs with h
      · rw [min_eq_right h.le, max_eq_left h.le]; ring
      · rw [min_eq_left (not_lt.1 h), max_eq_right (not_lt.1 h)]; ring
    rw [this, hs, div_mul_cancel₀ _ hlt.ne']; ring

/-- The same for `t i` strictly between 0 and 1. -/
theorem proj_open (v : Fin n → ℝ) {y : ℝ} (h1 : ∑ i, min 0 (v i) < y) (h2 : y < ∑ i, max 0 (v i)) :
    ∃ t : Fin n → ℝ, (∀ i, 0 < t i ∧ t i < 1) ∧ ∑ i, t i * v i = y := by
  set L := ∑ i, min 0 (v i)
  set H := ∑ i, max 0 (v i)
  have hlt : 0 < H - L := by linarith
  set s := (y - L) / (H - L) with hs
  have hs0 : 0 < s := div_pos (by linarith) hlt
  have hs1 : s < 1 := by rw [hs, div_lt_one hlt]; linarith
  refine ⟨fun i => if v i < 0 then 1 - s else s, fun i => by simp only; split_ifs <;> constructor <;> linarith, ?_⟩
  have : ∑ i, (if v i < 0 then 1 - s else s) * v i = L + s * (H - L) := by
    simp only [L, H]
    rw [← Finset.sum_sub_distrib, Finset.mul_sum, ← Finset.sum_add_distrib]
    refine Finset.sum_congr rfl fun i _ => ?_
    split_ifs with h
    · rw [min_eq_right h.le, max_eq_left h.le]; ring
    · rw [min_eq_left (not_lt.1 h), max_eq_right (not_lt.1 h)]; ring
  rw [this, hs, div_mul_cancel₀ _ hlt.ne']; ring

theorem proj_bounds (v t : Fin n → ℝ) (ht : ∀ i, 0 ≤ t i ∧ t i ≤ 1) :
    ∑ i, min 0 (v i) ≤ ∑ i, t i * v i ∧ ∑ i, t i * v i ≤ ∑ i, max 0 (v i) := by
  constructor <;> refine Finset.sum_le_sum fun i _ => ?_ <;> have := ht i <;> rcases le_total 0 (v i) with h | h
  · rw [min_eq_left h]; nlinarith
  · rw [min_eq_right h]; nlinarith
  · rw [max_eq_right h]; nlinarith
  · rw [max_eq_left h]; nlinarith

theorem proj_bounds_strict (v t : Fin n → ℝ) (ht : ∀ i, 0 < t i ∧ t i < 1) (hv : ∃ i, v i ≠ 0) :
    ∑ i, min 0 (v i) < ∑ i, t i * v i ∧ ∑ i, t i * v i < ∑ i, max 0 (v i) := by
  obtain ⟨j, hj⟩ := hv
  have weak : ∀ i, min 0 (v i) ≤ t i * v i ∧ t i * v i ≤ max 0 (v i) := fun i => by
    have := ht i
    rcases le_total 0 (v i) with h | h
    · rw [min_eq_left h, max_eq_right h]; constructor <;> nlinarith
    · rw [min_eq_right h, max_eq_left h]; constructor <;> nlinarith
  have strict : min 0 (v j) < t j * v j ∧ t j * v j < max 0 (v j) := by
    have := ht j
    rcases lt_or_gt_of_ne hj with h | h
    · rw [min_eq_right h.le, max_eq_left h.le]; constructor <;> nlinarith
    · rw [min_eq_left h.le, max_eq_right h.le]; constructor <;> nlinarith
  exact ⟨Finset.sum_lt_sum (fun i _ => (weak i).1) ⟨j, Finset.mem_univ _, strict.1⟩,
    Finset.sum_lt_sum (fun i _ => (weak i).2) ⟨j, Finset.mem_univ _, strict.2⟩⟩

theorem sums_lt {v : Fin n → ℝ} (hv : ∃ i, v i ≠ 0) : ∑ i, min 0 (v i) < ∑ i, max 0 (v i) := by
  have := proj_bounds_strict v (fun _ => 1 / 2) (fun _ => by norm_num) hv
  linarith [this.1, this.2]
theorem sums_le (v : Fin n → ℝ) : ∑ i, min 0 (v i) ≤ ∑ i, max 0 (v i) :=
  Finset.sum_le_sum fun _ _ => (min_le_left _ _).trans (le_max_left _ _)

end WFMath
