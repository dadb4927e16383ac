/- Property theorems C124 and C125: rotation matrices and changes of coordinates in floating point arithmetic. -/
import Verif.Props.RoundQuat

namespace WFMath
open Spec Matrix Gauss Quaternion
open WFMath.Spec.Rounding (u)
variable {n : Nat}

/-- The matrix `m` stands for `R` with an error up to `δ`: it takes every vector to what `R` takes it to, up to `δ` times its length. -/
def Spec.Stands (m R : Matrix (Fin n) (Fin n) ℝ) (δ : ℝ) : Prop := ∀ v, len (m *ᵥ v - R *ᵥ v) ≤ δ * len v

namespace Fl

theorem len_orth {R : Matrix (Fin n) (Fin n) ℝ} (hR : Rᵀ * R = 1) (v : Fin n → ℝ) : len (R *ᵥ v) = len v := by
  unfold len
  rw [dotProduct_mulVec, vecMul_mulVec, ← mulVec_transpose, transpose_mul, transpose_transpose, hR, one_mulVec]

/-- A bound for the components bounds the length. -/
theorem len_comp_le {a : Fin n → ℝ} {b : ℝ} (hb : 0 ≤ b) (h : ∀ i, |a i| ≤ b) : len a ≤ √n * b := by
  refine Real.sqrt_le_iff.2 ⟨by positivity, ?_⟩
  rw [mul_pow, Real.sq_sqrt (Nat.cast_nonneg n)]
  have : a ⬝ᵥ a ≤ ∑ _i : Fin n, b ^ 2 := Finset.sum_le_sum fun i _ => by
    have := mul_self_le_mul_self (abs_nonneg _) (h i)
    rw [abs_mul_abs_self] at this; nlinarith
  simpa using this

theorem len_mono {a b : Fin n → ℝ} {c : ℝ} (hc : 0 ≤ c) (h : ∀ i, |a i| ≤ c * |b i|) : len a ≤ c * len b := by
  refine Real.sqrt_le_iff.2 ⟨mul_nonneg hc (len_nonneg _), ?_⟩
  rw [mul_pow, len_sq]
  unfold dotProduct
  rw [Finset.mul_sum]
  refine Finset.sum_le_sum fun i _ => ?_
  have := mul_self_le_mul_self (abs_nonneg _) (h i)
  rw [abs_mul_abs_self] at this
  have h2 := abs_mul_abs_self (b i)
  nlinarith

/-- Rounding every component. -/
theorem len_round (r : Rounding 53) (f : Fin n → ℝ) : len ((fun i => r (f i)) - f) ≤ 2 ^ (-53 : ℤ) * len f :=
  len_mono (by positivity) fun i => by have := r.err pos53 (f i); rwa [u53] at this

/-- The transposed matrix is as close. -/
theorem stands_transpose {m R : Matrix (Fin n) (Fin n) ℝ} {δ : ℝ} (h0 : 0 ≤ δ) (h : Stands m R δ) : Stands mᵀ Rᵀ δ := by
  intro v
  have e : mᵀ *ᵥ v - Rᵀ *ᵥ v = (m - R)ᵀ *ᵥ v := by rw [transpose_sub, sub_mulVec]
  rw [e]
  generalize hw : (m - R)ᵀ *ᵥ v = w
  have h1 : len w ^ 2 ≤ δ * len v * len w := by
    rw [len_sq]
    conv_lhs => lhs; rw [← hw]
    rw [mulVec_transpose, ← dotProduct_mulVec]
    have h2 := h w
    rw [← sub_mulVec] at h2
    have := (dot_le_len v ((m - R) *ᵥ w)).trans (mul_le_mul_of_nonneg_left h2 (len_nonneg _))
    linarith
  rcases eq_or_lt_of_le (len_nonneg w) with h2 | h2
  · rw [← h2]; exact mul_nonneg h0 (len_nonneg _)
  · nlinarith

theorem stands_len {m R : Matrix (Fin n) (Fin n) ℝ} {δ : ℝ} (hR : Rᵀ * R = 1) (h : Stands m R δ) (v : Fin n → ℝ) : len (m *ᵥ v) ≤ (1 + δ) * len v := by
  have h1 := len_add_le (m *ᵥ v - R *ᵥ v) (R *ᵥ v)
  rw [sub_add_cancel, len_orth hR] at h1
  linarith [h v]

theorem len_single (j : Fin n) : len (Pi.single j 1 : Fin n → ℝ) = 1 := by
  unfold len; simp

theorem stands_col {m R : Matrix (Fin n) (Fin n) ℝ} {δ : ℝ} (hR : Rᵀ * R = 1) (h : Stands m R δ) (j : Fin n) : len (fun i => m i j) ≤ 1 + δ := by
  have := stands_len hR h (Pi.single j 1)
  rwa [len_single, mul_one, mulVec_single_one] at this

theorem stands_row {m R : Matrix (Fin n) (Fin n) ℝ} {δ : ℝ} (h0 : 0 ≤ δ) (hR : Rᵀ * R = 1) (h : Stands m R δ) (i : Fin n) : len (fun j => m i j) ≤ 1 + δ :=
  stands_col (by rw [transpose_transpose]; exact mul_eq_one_comm.1 hR) (stands_transpose h0 h) i

/-- The computed inner product of two arrays. -/
theorem inner_err (r : Rounding 53) (a b : Fin n → ℝ) (hn : n + 1 ≤ 2 ^ 52) : |sum r (fun k => r (a k * b k)) - a ⬝ᵥ b| ≤ (n + 1) * 2 ^ (-52 : ℤ) * (len a * len b) := by
  have h1 := sum_err r (k := 1) (f := fun k => r (a k * b k)) (g := fun k => a k * b k) fun i => Close.round_self pos53 r _
  have h2 : gam (1 + n) ≤ (n + 1) * 2 ^ (-52 : ℤ) := by
    have := gam_le (k := 1 + n) (by omega)
    push_cast at this; linarith
  have h3 : ∑ i, |a i * b i| ≤ len a * len b := by
    have e : ∑ i, |a i * b i| = (fun i => |a i|) ⬝ᵥ fun i => |b i| := by
      unfold dotProduct; exact Finset.sum_congr rfl fun i _ => abs_mul _ _
    have h4 : ∀ x : Fin n → ℝ, len (fun i => |x i|) = len x := fun x => by
      unfold len dotProduct; congr 1; exact Finset.sum_congr rfl fun i _ => abs_mul_abs_self _
    rw [e, ← h4 a, ← h4 b]
    exact dot_le_len _ _
  refine h1.trans (mul_le_mul h2 h3 (Finset.sum_nonneg fun i _ => abs_nonneg _) (by positivity))

/-- A computed matrix product with rows `a i` and columns `b j`. -/
theorem entries_err (r : Rounding 53) (a b : Fin n → Fin n → ℝ) {A B : ℝ} (hA : 0 ≤ A) (hB : 0 ≤ B) (ha : ∀ i, len (a i) ≤ A) (hb : ∀ j, len (b j) ≤ B) (hn : n + 1 ≤ 2 ^ 52) :
    Stands (Matrix.of fun i j => sum r fun k => r (a i k * b j k)) (Matrix.of fun i j => a i ⬝ᵥ b j) (n * (n + 1) * 2 ^ (-52 : ℤ) * (A * B)) := by
  intro v
  rw [← sub_mulVec]
  generalize hc : (n + 1 : ℝ) * 2 ^ (-52 : ℤ) * (A * B) = c
  have c0 : 0 ≤ c := by rw [← hc]; positivity
  have h1 : ∀ i, len ((Matrix.of (fun i j => sum r fun k => r (a i k * b j k)) - Matrix.of fun i j => a i ⬝ᵥ b j) i) ≤ √n * c := fun i =>
    len_comp_le c0 fun j => by
      rw [← hc]
      exact (inner_err r (a i) (b j) hn).trans (mul_le_mul_of_nonneg_left (mul_le_mul (ha i) (hb j) (len_nonneg _) hA) (by positivity))
  have h2 : ∀ i, |((Matrix.of (fun i j => sum r fun k => r (a i k * b j k)) - Matrix.of fun i j => a i ⬝ᵥ b j) *ᵥ v) i| ≤ √n * c * len v := fun i =>
    (abs_dot_le_len _ _).trans (mul_le_mul_of_nonneg_right (h1 i) (len_nonneg _))
  refine (len_comp_le (by have := len_nonneg v; positivity) h2).trans (le_of_eq ?_)
  have : √(n : ℝ) * √(n : ℝ) = n := Real.mul_self_sqrt (Nat.cast_nonneg n)
  calc √(n : ℝ) * (√n * c * len v) = (√n * √n) * c * len v := by ring
    _ = _ := by rw [this, ← hc]; ring

theorem stands_trans {a b c : Matrix (Fin n) (Fin n) ℝ} {α β : ℝ} (h1 : Stands a b α) (h2 : Stands b c β) : Stands a c (α + β) := fun v => by
  have := len_triangle (a *ᵥ v) (b *ᵥ v) (c *ᵥ v)
  linarith [h1 v, h2 v]

theorem stands_mul {a b R S : Matrix (Fin n) (Fin n) ℝ} {α β : ℝ} (h0 : 0 ≤ α) (hR : Rᵀ * R = 1) (hS : Sᵀ * S = 1) (ha : Stands a R α) (hb : Stands b S β) :
    Stands (a * b) (R * S) (α + β + α * β) := fun v => by
  rw [← mulVec_mulVec, ← mulVec_mulVec]
  have h1 := ha (b *ᵥ v)
  have h2 := stands_len hS hb v
  have h3 := len_triangle (a *ᵥ b *ᵥ v) (R *ᵥ b *ᵥ v) (R *ᵥ S *ᵥ v)
  rw [← mulVec_sub R, len_orth hR] at h3
  have h4 := mul_le_mul_of_nonneg_left h2 h0
  linarith [hb v]

end Fl

/-- C124, vectors: multiplying a vector by a matrix that stands for the orthogonal matrix `R` with an error up to `δ`, from either side, gives the image under `R` or its transpose
up to `δ + 2 n (n+1) 2⁻⁵²` times the length of the vector. -/
theorem C124_vector (r : Rounding 53) (m : RotMat n) (R : Matrix (Fin n) (Fin n) ℝ) (δ : ℝ) (hn : n < 2 ^ 52) (h0 : 0 ≤ δ) (h1 : δ ≤ 1) (hR : Rᵀ * R = 1)
    (hm : Stands m.elem R δ) (v : Vec n) :
    len ((Fl.matVec r m v).elem - R *ᵥ v.elem) ≤ (δ + 2 * n * (n + 1) * 2 ^ (-52 : ℤ)) * len v.elem ∧
    len ((Fl.vecMat r m v).elem - v.elem ᵥ* R) ≤ (δ + 2 * n * (n + 1) * 2 ^ (-52 : ℤ)) * len v.elem := by
  have key : ∀ M S : Matrix (Fin n) (Fin n) ℝ, Sᵀ * S = 1 → Stands M S δ →
      len ((fun i => Fl.sum r fun j => r (M i j * v.elem j)) - S *ᵥ v.elem) ≤ (δ + 2 * n * (n + 1) * 2 ^ (-52 : ℤ)) * len v.elem := by
    intro M S hS hM
    have hL := len_nonneg v.elem
    have a : ∀ i, |((fun i => Fl.sum r fun j => r (M i j * v.elem j)) - M *ᵥ v.elem) i| ≤ (n + 1) * 2 ^ (-52 : ℤ) * (2 * len v.elem) := fun i =>
      (Fl.inner_err r (M i) v.elem (by omega)).trans (mul_le_mul_of_nonneg_left
        (mul_le_mul_of_nonneg_right ((Fl.stands_row h0 hS hM i).trans (by linarith)) hL) (by positivity))
    have b := Fl.len_comp_le (by positivity) a
    have c : √(n : ℝ) ≤ n := by
      rcases Nat.eq_zero_or_pos n with rfl | hp
      · simp
      · rw [Real.sqrt_le_left (by positivity)]
        have : (1 : ℝ) ≤ n := by exact_mod_cast hp
        nlinarith
    have d := mul_le_mul_of_nonneg_right c (show (0 : ℝ) ≤ (n + 1) * 2 ^ (-52 : ℤ) * (2 * len v.elem) by positivity)
    have e := len_triangle (fun i => Fl.sum r fun j => r (M i j * v.elem j)) (M *ᵥ v.elem) (S *ᵥ v.elem)
    linarith [hM v.elem]
  refine ⟨key _ _ hR hm, ?_⟩
  rw [← mulVec_transpose]
  exact key _ _ (by rw [transpose_transpose]; exact mul_eq_one_comm.1 hR) (Fl.stands_transpose h0 hm)

/-- C124, products: when `a` and `b` stand for the orthogonal matrices `R` and `S`, the computed products (with either factor inverted) stand for the products of `R` and `S` or
their inverses; the errors add up, and each product adds `2 n (n+1) 2⁻⁵²`. -/
theorem C124_product (r : Rounding 53) (a b : RotMat n) (R S : Matrix (Fin n) (Fin n) ℝ) (α β : ℝ) (hn : n < 2 ^ 52) (ha0 : 0 ≤ α) (hb0 : 0 ≤ β) (h1 : α ≤ 1 / 4) (h2 : β ≤ 1 / 4)
    (hR : Rᵀ * R = 1) (hS : Sᵀ * S = 1) (ha : Stands a.elem R α) (hb : Stands b.elem S β) :
    Stands (Fl.prod r a b).elem (R * S) (α + β + α * β + 2 * n * (n + 1) * 2 ^ (-52 : ℤ)) ∧
    Stands (Fl.prodInv r a b).elem (R * S⁻¹) (α + β + α * β + 2 * n * (n + 1) * 2 ^ (-52 : ℤ)) ∧
    Stands (Fl.invProd r a b).elem (R⁻¹ * S) (α + β + α * β + 2 * n * (n + 1) * 2 ^ (-52 : ℤ)) ∧
    Stands (Fl.invProdInv r a b).elem (R⁻¹ * S⁻¹) (α + β + α * β + 2 * n * (n + 1) * 2 ^ (-52 : ℤ)) := by
  have key : ∀ A B P Q : Matrix (Fin n) (Fin n) ℝ, Pᵀ * P = 1 → Qᵀ * Q = 1 → Stands A P α → Stands B Q β →
      Stands (Matrix.of fun i j => Fl.sum r fun k => r (A i k * B k j)) (P * Q) (α + β + α * β + 2 * n * (n + 1) * 2 ^ (-52 : ℤ)) := by
    intro A B P Q hP hQ hA hB v
    have e1 := Fl.entries_err r (fun i k => A i k) (fun j k => B k j) (A := 1 + α) (B := 1 + β) (by linarith) (by linarith) (Fl.stands_row ha0 hP hA)
      (Fl.stands_col hQ hB) (by omega)
    have e2 := Fl.stands_trans e1 (Fl.stands_mul ha0 hP hQ hA hB) v
    refine e2.trans (mul_le_mul_of_nonneg_right ?_ (len_nonneg _))
    have h3 : (1 + α) * (1 + β) ≤ 2 := by nlinarith
    have h4 := mul_le_mul_of_nonneg_left h3 (show (0 : ℝ) ≤ n * (n + 1) * 2 ^ (-52 : ℤ) by positivity)
    linarith
  have hR' : Rᵀᵀ * Rᵀ = 1 := by rw [transpose_transpose]; exact mul_eq_one_comm.1 hR
  have hS' : Sᵀᵀ * Sᵀ = 1 := by rw [transpose_transpose]; exact mul_eq_one_comm.1 hS
  rw [inv_eq_left_inv hR, inv_eq_left_inv hS]
  exact ⟨key _ _ _ _ hR hS ha hb, key _ _ _ _ hR hS' ha (Fl.stands_transpose hb0 hb), key _ _ _ _ hR' hS (Fl.stands_transpose ha0 ha) hb,
    key _ _ _ _ hR' hS' (Fl.stands_transpose ha0 ha) (Fl.stands_transpose hb0 hb)⟩

/-- C124, chains: the product of `k` matrices, each standing for an orthogonal matrix with an error up to `α`, stands for the product of these with an error up to
`2 k (α + 2 n (n+1) 2⁻⁵²)`. It is the computed product as long as the ages add up to less than 20. -/
theorem C124_chain (r : Rounding 53) (α : ℝ) (hn : n < 2 ^ 52) (h0 : 0 ≤ α) (l : List (RotMat n × Matrix (Fin n) (Fin n) ℝ))
    (hl : ∀ p ∈ l, p.2ᵀ * p.2 = 1 ∧ Stands p.1.elem p.2 α) (hs : 2 * l.length * (α + 2 * n * (n + 1) * 2 ^ (-52 : ℤ)) ≤ 1 / 4) :
    Stands (l.foldl (fun m p => Fl.prod r m p.1) RotMat.identity).elem (l.map Prod.snd).prod (2 * l.length * (α + 2 * n * (n + 1) * 2 ^ (-52 : ℤ))) := by
  have hκ : (0 : ℝ) ≤ 2 * n * (n + 1) * 2 ^ (-52 : ℤ) := by positivity
  induction l using List.reverseRecOn with
  | nil =>
    intro v
    simp only [List.foldl_nil, List.map_nil, List.prod_nil, List.length_nil]
    have e : (RotMat.identity : RotMat n).elem = 1 := by
      ext i j; simp [RotMat.identity, Matrix.one_apply]
    rw [e, sub_self, len_zero]; simp
  | append_singleton l p ih =>
    rw [List.length_append, List.length_singleton] at hs ⊢
    push_cast at hs ⊢
    have hk : (0 : ℝ) ≤ l.length := Nat.cast_nonneg _
    have ihl := ih (fun q hq => hl q (List.mem_append_left _ hq)) (by nlinarith)
    obtain ⟨hp, hps⟩ := hl p (by simp)
    have horth : ((l.map Prod.snd).prod)ᵀ * (l.map Prod.snd).prod = 1 := by
      have : ∀ l : List (Matrix (Fin n) (Fin n) ℝ), (∀ m ∈ l, mᵀ * m = 1) → l.prodᵀ * l.prod = 1 := by
        intro l
        induction l with
        | nil => intro _; simp
        | cons m l ih =>
          intro h
          rw [List.prod_cons, transpose_mul, Matrix.mul_assoc, ← Matrix.mul_assoc mᵀ, h m (by simp), Matrix.one_mul]
          exact ih fun q hq => h q (List.mem_cons_of_mem _ hq)
      refine this _ fun m hm => ?_
      obtain ⟨q, hq, rfl⟩ := List.mem_map.1 hm
      exact (hl q (List.mem_append_left _ hq)).1
    rw [List.foldl_append, List.map_append, List.prod_append, List.foldl_cons, List.foldl_nil, List.map_cons, List.map_nil, List.prod_singleton]
    have hE : 0 ≤ 2 * (l.length : ℝ) * (α + 2 * n * (n + 1) * 2 ^ (-52 : ℤ)) := by positivity
    have hs' : 2 * (l.length : ℝ) * (α + 2 * n * (n + 1) * 2 ^ (-52 : ℤ)) + 2 * (α + 2 * n * (n + 1) * 2 ^ (-52 : ℤ)) ≤ 1 / 4 := by
      refine le_trans (le_of_eq ?_) hs; ring
    have hb : ∀ κ : ℝ, 0 ≤ κ → 0 ≤ 2 * (l.length : ℝ) * (α + κ) → 2 * (l.length : ℝ) * (α + κ) + 2 * (α + κ) ≤ 1 / 4 → 2 * (l.length : ℝ) * (α + κ) ≤ 1 / 4 ∧ α ≤ 1 / 4 :=
      fun κ _ _ _ => ⟨by linarith, by linarith⟩
    obtain ⟨b1, b2⟩ := hb _ hκ hE hs'
    have h3 := (C124_product r _ p.1 _ p.2 _ α hn hE h0 b1 b2 horth hp ihl hps).1
    intro v
    refine (h3 v).trans (mul_le_mul_of_nonneg_right ?_ (len_nonneg _))
    generalize (2 * n * (n + 1) * 2 ^ (-52 : ℤ) : ℝ) = κ at *
    have h4 : 2 * (l.length : ℝ) * (α + κ) * α ≤ 1 * α := mul_le_mul_of_nonneg_right (by linarith) h0
    linarith

/-! ### C125 -/

namespace Fl

/-- To a parent frame and back, for any pair of rotations that are computed with a relative error up to `E`. -/
theorem there_and_back (r : Rounding 53) {A B : (Fin n → ℝ) → Fin n → ℝ} {F G : Vec n → Vec n} {E : ℝ} (hE : 0 ≤ E) (hE1 : E ≤ 1 / 4)
    (hA : ∀ u v, len (A u - A v) = len (u - v)) (hA0 : ∀ v, len (A v) = len v) (hB : ∀ u v, len (B u - B v) = len (u - v)) (hB0 : ∀ v, len (B v) = len v)
    (hBA : ∀ v, B (A v) = v) (hF : ∀ v : Vec n, len ((F v).elem - A v.elem) ≤ E * len v.elem) (hG : ∀ v : Vec n, len ((G v).elem - B v.elem) ≤ E * len v.elem) (x o : Pt n) :
    len ((addVec r Pt.origin (G (ptSub r (addVec r o (F (ptSub r x Pt.origin))) o))).elem - x.elem) ≤
      (3 * E + 6 * 2 ^ (-53 : ℤ)) * len x.elem + 2 * 2 ^ (-53 : ℤ) * len o.elem := by
  have u0 : (0 : ℝ) ≤ 2 ^ (-53 : ℤ) := by positivity
  have u1 : (2 : ℝ) ^ (-53 : ℤ) ≤ 1 / 1000000 := by norm_num
  have hX := len_nonneg x.elem
  have hO := len_nonneg o.elem
  have a1 : len ((ptSub r x Pt.origin).elem - x.elem) ≤ 2 ^ (-53 : ℤ) * len x.elem := by
    have := len_round r x.elem
    have e : (ptSub r x Pt.origin).elem = fun i => r (x.elem i) := by funext i; simp [ptSub, Pt.origin]
    rwa [e]
  have a2 := hF (ptSub r x Pt.origin)
  have a3 := len_round r (o.elem + (F (ptSub r x Pt.origin)).elem)
  change len ((addVec r o (F (ptSub r x Pt.origin))).elem - (o.elem + (F (ptSub r x Pt.origin)).elem)) ≤ _ at a3
  have a4 := len_round r ((addVec r o (F (ptSub r x Pt.origin))).elem - o.elem)
  change len ((ptSub r (addVec r o (F (ptSub r x Pt.origin))) o).elem - ((addVec r o (F (ptSub r x Pt.origin))).elem - o.elem)) ≤ _ at a4
  have a5 := hG (ptSub r (addVec r o (F (ptSub r x Pt.origin))) o)
  have a6 : len ((addVec r Pt.origin (G (ptSub r (addVec r o (F (ptSub r x Pt.origin))) o))).elem - (G (ptSub r (addVec r o (F (ptSub r x Pt.origin))) o)).elem) ≤
      2 ^ (-53 : ℤ) * len (G (ptSub r (addVec r o (F (ptSub r x Pt.origin))) o)).elem := by
    have := len_round r (G (ptSub r (addVec r o (F (ptSub r x Pt.origin))) o)).elem
    have e : (addVec r Pt.origin (G (ptSub r (addVec r o (F (ptSub r x Pt.origin))) o))).elem = fun i => r ((G (ptSub r (addVec r o (F (ptSub r x Pt.origin))) o)).elem i) := by
      funext i; simp [addVec, Pt.origin]
    rwa [e]
  generalize (addVec r Pt.origin (G (ptSub r (addVec r o (F (ptSub r x Pt.origin))) o))).elem = p at *
  generalize (G (ptSub r (addVec r o (F (ptSub r x Pt.origin))) o)).elem = w at *
  generalize (ptSub r (addVec r o (F (ptSub r x Pt.origin))) o).elem = z at *
  generalize (addVec r o (F (ptSub r x Pt.origin))).elem = q at *
  generalize (F (ptSub r x Pt.origin)).elem = y at *
  generalize (ptSub r x Pt.origin).elem = a at *
  generalize x.elem = x at *
  generalize o.elem = o at *
  generalize (2 : ℝ) ^ (-53 : ℤ) = t at *
  -- `a`
  have l1 : len a ≤ (1 + t) * len x := by
    have := len_add_le (a - x) x; rw [sub_add_cancel] at this; linarith
  -- `y`
  have d1 : len (y - A x) ≤ E * len a + t * len x := by
    have := len_triangle y (A a) (A x); rw [hA] at this; linarith
  have l2 : len y ≤ (1 + E) * len a := by
    have := len_add_le (y - A a) (A a); rw [sub_add_cancel, hA0] at this; linarith
  -- `q`
  have l3 := len_add_le o y
  have l4 : len (q - o) ≤ len y + t * (len o + len y) := by
    have := len_add_le (q - (o + y)) y
    rw [show q - (o + y) + y = q - o by abel] at this
    nlinarith
  -- `z`
  have d2 : len (z - y) ≤ t * len (q - o) + t * (len o + len y) := by
    have := len_add_le (z - (q - o)) (q - (o + y))
    rw [show z - (q - o) + (q - (o + y)) = z - y by abel] at this
    nlinarith
  have l5 : len z ≤ len y + len (z - y) := by
    have := len_add_le (z - y) y; rw [sub_add_cancel] at this; linarith
  -- `w`
  have l6 : len w ≤ (1 + E) * len z := by
    have := len_add_le (w - B z) (B z); rw [sub_add_cancel, hB0] at this; linarith
  -- all together
  have t1 := len_triangle p w x
  have t2 := len_triangle w (B z) x
  have t3 := len_triangle (B z) (B y) x
  have t4 : len (B y - x) = len (y - A x) := by rw [← hB y (A x), hBA]
  rw [hB] at t3
  rw [t4] at t3
  have hy0 := len_nonneg y
  have hz0 := len_nonneg z
  have ha0 := len_nonneg a
  generalize len x = X at *
  generalize len o = O at *
  generalize len y = Y at *
  generalize len z = Z at *
  generalize len a = a at *
  generalize len w = W at *
  generalize len (q - o) = Q at *
  generalize len (z - y) = D at *
  have ta : a ≤ (1 + 1 / 1000000) * X := l1.trans (mul_le_mul_of_nonneg_right (by linarith) hX)
  have tY : Y ≤ 13 / 10 * X := by
    have := mul_le_mul_of_nonneg_right (show 1 + E ≤ 5 / 4 by linarith) ha0
    linarith
  have tO : t * O ≥ 0 := mul_nonneg u0 hO
  have tX : t * X ≥ 0 := mul_nonneg u0 hX
  have tYt : t * Y ≤ t * (13 / 10 * X) := mul_le_mul_of_nonneg_left tY u0
  have tt : t * (t * (O + Y)) ≤ 1 / 1000000 * (t * (O + Y)) := mul_le_mul_of_nonneg_right u1 (by positivity)
  have tQ : t * Q ≤ t * (Y + t * (O + Y)) := mul_le_mul_of_nonneg_left l4 u0
  have tD : D ≤ 27 / 10 * (t * X) + 11 / 10 * (t * O) := by nlinarith
  have tt2 : t * (t * X) ≤ 1 / 1000000 * (t * X) := mul_le_mul_of_nonneg_right u1 tX
  have tt3 : t * (t * O) ≤ 1 / 1000000 * (t * O) := mul_le_mul_of_nonneg_right u1 tO
  have ux : t * X ≤ 1 / 1000000 * X := mul_le_mul_of_nonneg_right u1 hX
  have tZ : Z ≤ 14 / 10 * X + 11 / 10 * (t * O) := by linarith
  have tW : W ≤ 18 / 10 * X + 14 / 10 * (t * O) := by
    have := mul_le_mul_of_nonneg_right (show 1 + E ≤ 5 / 4 by linarith) hz0
    linarith
  have tW' := mul_le_mul_of_nonneg_left tW u0
  have tZ' := mul_le_mul_of_nonneg_left tZ hE
  have tE : E * (t * O) ≤ 1 / 4 * (t * O) := mul_le_mul_of_nonneg_right hE1 tO
  have ta' := mul_le_mul_of_nonneg_left ta hE
  have hEX : 0 ≤ E * X := mul_nonneg hE hX
  nlinarith

/-- Into a parent frame. -/
theorem parent_err (r : Rounding 53) {A : (Fin n → ℝ) → Fin n → ℝ} {F : Vec n → Vec n} {E : ℝ} (hE : 0 ≤ E) (hE1 : E ≤ 1 / 4)
    (hA : ∀ u v, len (A u - A v) = len (u - v)) (hA0 : ∀ v, len (A v) = len v) (hF : ∀ v : Vec n, len ((F v).elem - A v.elem) ≤ E * len v.elem) (x o : Pt n) :
    len ((addVec r o (F (ptSub r x Pt.origin))).elem - (o.elem + A x.elem)) ≤ (2 * E + 3 * 2 ^ (-53 : ℤ)) * len x.elem + 2 ^ (-53 : ℤ) * len o.elem := by
  have u0 : (0 : ℝ) ≤ 2 ^ (-53 : ℤ) := by positivity
  have u1 : (2 : ℝ) ^ (-53 : ℤ) ≤ 1 / 1000000 := by norm_num
  have hX := len_nonneg x.elem
  have a1 : len ((ptSub r x Pt.origin).elem - x.elem) ≤ 2 ^ (-53 : ℤ) * len x.elem := by
    have := len_round r x.elem
    have e : (ptSub r x Pt.origin).elem = fun i => r (x.elem i) := by funext i; simp [ptSub, Pt.origin]
    rwa [e]
  have a2 := hF (ptSub r x Pt.origin)
  have a3 := len_round r (o.elem + (F (ptSub r x Pt.origin)).elem)
  change len ((addVec r o (F (ptSub r x Pt.origin))).elem - (o.elem + (F (ptSub r x Pt.origin)).elem)) ≤ _ at a3
  generalize (addVec r o (F (ptSub r x Pt.origin))).elem = q at *
  generalize (F (ptSub r x Pt.origin)).elem = y at *
  generalize (ptSub r x Pt.origin).elem = a at *
  generalize x.elem = x at *
  generalize o.elem = o at *
  generalize (2 : ℝ) ^ (-53 : ℤ) = t at *
  have l1 : len a ≤ (1 + t) * len x := by
    have := len_add_le (a - x) x; rw [sub_add_cancel] at this; linarith
  have d1 : len (y - A x) ≤ E * len a + t * len x := by
    have := len_triangle y (A a) (A x); rw [hA] at this; linarith
  have l2 : len y ≤ (1 + E) * len a := by
    have := len_add_le (y - A a) (A a); rw [sub_add_cancel, hA0] at this; linarith
  have l3 := len_add_le o y
  have t1 := len_triangle q (o + y) (o + A x)
  rw [add_sub_add_left_eq_sub] at t1
  have ha0 := len_nonneg a
  generalize len x = X at *
  generalize len o = O at *
  generalize len y = Y at *
  generalize len a = a at *
  have ta : a ≤ (1 + 1 / 1000000) * X := l1.trans (mul_le_mul_of_nonneg_right (by linarith) hX)
  have tY : Y ≤ 13 / 10 * X := by
    have := mul_le_mul_of_nonneg_right (show 1 + E ≤ 5 / 4 by linarith) ha0
    linarith
  have t2 := mul_le_mul_of_nonneg_left l3 u0
  have t3 := mul_le_mul_of_nonneg_left tY u0
  have t4 := mul_le_mul_of_nonneg_left ta hE
  have t5 := mul_nonneg hE hX
  have t6 := mul_nonneg u0 hX
  linarith

/-- Into a local frame, and back. -/
theorem local_err (r : Rounding 53) {A B : (Fin n → ℝ) → Fin n → ℝ} {F G : Vec n → Vec n} {E : ℝ} (hE : 0 ≤ E) (hE1 : E ≤ 1 / 4)
    (hA : ∀ u v, len (A u - A v) = len (u - v)) (hB : ∀ u v, len (B u - B v) = len (u - v)) (hB0 : ∀ v, len (B v) = len v)
    (hA0 : ∀ v, len (A v) = len v)
    (hAB : ∀ v, A (B v) = v) (hF : ∀ v : Vec n, len ((F v).elem - A v.elem) ≤ E * len v.elem) (hG : ∀ v : Vec n, len ((G v).elem - B v.elem) ≤ E * len v.elem) (x o : Pt n) :
    len ((addVec r Pt.origin (G (ptSub r x o))).elem - B (x.elem - o.elem)) ≤ (2 * E + 3 * 2 ^ (-53 : ℤ)) * len (x.elem - o.elem) ∧
    len ((addVec r o (F (ptSub r (addVec r Pt.origin (G (ptSub r x o))) Pt.origin))).elem - x.elem) ≤
      (6 * E + 8 * 2 ^ (-53 : ℤ)) * len (x.elem - o.elem) + 2 ^ (-53 : ℤ) * len o.elem := by
  have u0 : (0 : ℝ) ≤ 2 ^ (-53 : ℤ) := by positivity
  have u1 : (2 : ℝ) ^ (-53 : ℤ) ≤ 1 / 1000000 := by norm_num
  have first : len ((addVec r Pt.origin (G (ptSub r x o))).elem - B (x.elem - o.elem)) ≤ (2 * E + 3 * 2 ^ (-53 : ℤ)) * len (x.elem - o.elem) := by
    have hD := len_nonneg (x.elem - o.elem)
    have a1 : len ((ptSub r x o).elem - (x.elem - o.elem)) ≤ 2 ^ (-53 : ℤ) * len (x.elem - o.elem) := len_round r (x.elem - o.elem)
    have a2 := hG (ptSub r x o)
    have a3 : len ((addVec r Pt.origin (G (ptSub r x o))).elem - (G (ptSub r x o)).elem) ≤ 2 ^ (-53 : ℤ) * len (G (ptSub r x o)).elem := by
      have := len_round r (G (ptSub r x o)).elem
      have e : (addVec r Pt.origin (G (ptSub r x o))).elem = fun i => r ((G (ptSub r x o)).elem i) := by funext i; simp [addVec, Pt.origin]
      rwa [e]
    generalize (addVec r Pt.origin (G (ptSub r x o))).elem = p at *
    generalize (G (ptSub r x o)).elem = w at *
    generalize (ptSub r x o).elem = a at *
    generalize x.elem - o.elem = d at *
    generalize (2 : ℝ) ^ (-53 : ℤ) = t at *
    have l1 : len a ≤ (1 + t) * len d := by
      have := len_add_le (a - d) d; rw [sub_add_cancel] at this; linarith
    have d1 : len (w - B d) ≤ E * len a + t * len d := by
      have := len_triangle w (B a) (B d); rw [hB] at this; linarith
    have l2 : len w ≤ (1 + E) * len a := by
      have := len_add_le (w - B a) (B a); rw [sub_add_cancel, hB0] at this; linarith
    have t1 := len_triangle p w (B d)
    have ha0 := len_nonneg a
    generalize len d = X at *
    generalize len w = Y at *
    generalize len a = a at *
    have ta : a ≤ (1 + 1 / 1000000) * X := l1.trans (mul_le_mul_of_nonneg_right (by linarith) hD)
    have tY : Y ≤ 13 / 10 * X := by
      have := mul_le_mul_of_nonneg_right (show 1 + E ≤ 5 / 4 by linarith) ha0
      linarith
    have t3 := mul_le_mul_of_nonneg_left tY u0
    have t4 := mul_le_mul_of_nonneg_left ta hE
    have t5 := mul_nonneg hE hD
    have t6 := mul_nonneg u0 hD
    linarith
  refine ⟨first, ?_⟩
  have second := parent_err r hE hE1 hA hA0 hF (addVec r Pt.origin (G (ptSub r x o))) o
  generalize (addVec r Pt.origin (G (ptSub r x o))) = p at *
  generalize (addVec r o (F (ptSub r p Pt.origin))).elem = q at *
  have t1 := len_triangle q (o.elem + A p.elem) x.elem
  have t2 : len (o.elem + A p.elem - x.elem) = len (p.elem - B (x.elem - o.elem)) := by
    rw [← hA p.elem, hAB]; congr 1; abel
  rw [t2] at t1
  have h1 := len_add_le (p.elem - B (x.elem - o.elem)) (B (x.elem - o.elem))
  rw [sub_add_cancel, hB0] at h1
  have hD := len_nonneg (x.elem - o.elem)
  generalize (2 : ℝ) ^ (-53 : ℤ) = t at *
  generalize len (x.elem - o.elem) = D at *
  have l1 : len p.elem ≤ 16 / 10 * D := by
    have := mul_le_mul_of_nonneg_right (show 2 * E + 3 * t ≤ 6 / 10 by linarith) hD
    linarith
  have l2 := mul_le_mul_of_nonneg_left l1 (show 0 ≤ 2 * E + 3 * t by linarith)
  have t5 := mul_nonneg hE hD
  have t6 := mul_nonneg u0 hD
  linarith

end Fl

/-- C125, matrices: changing to and from a parent frame given by an origin `o` and a matrix that stands for the orthogonal matrix `R` gives the exact coordinates up to an error in
proportion to the length of the rotated vector plus half a unit in the last place of the origin, and doing both gives the point back in the same sense. -/
theorem C125_matrix (r : Rounding 53) (m : RotMat n) (R : Matrix (Fin n) (Fin n) ℝ) (E : ℝ) (hn : n < 2 ^ 52) (hR : Rᵀ * R = 1)
    (h0 : 2 * n * (n + 1) * 2 ^ (-52 : ℤ) ≤ E) (h1 : E ≤ 1 / 4) (hm : Stands m.elem R (E - 2 * n * (n + 1) * 2 ^ (-52 : ℤ))) (x o : Pt n) :
    len ((Fl.toParent r x o m).elem - (o.elem + x.elem ᵥ* R)) ≤ (2 * E + 3 * 2 ^ (-53 : ℤ)) * len x.elem + 2 ^ (-53 : ℤ) * len o.elem ∧
    len ((Fl.toLocal r x o m).elem - R *ᵥ (x.elem - o.elem)) ≤ (2 * E + 3 * 2 ^ (-53 : ℤ)) * len (x.elem - o.elem) ∧
    len ((Fl.toLocal r (Fl.toParent r x o m) o m).elem - x.elem) ≤ (3 * E + 6 * 2 ^ (-53 : ℤ)) * len x.elem + 2 * 2 ^ (-53 : ℤ) * len o.elem ∧
    len ((Fl.toParent r (Fl.toLocal r x o m) o m).elem - x.elem) ≤ (6 * E + 8 * 2 ^ (-53 : ℤ)) * len (x.elem - o.elem) + 2 ^ (-53 : ℤ) * len o.elem := by
  have hκ : (0 : ℝ) ≤ 2 * n * (n + 1) * 2 ^ (-52 : ℤ) := by positivity
  have hE : 0 ≤ E := hκ.trans h0
  have hV := fun v => C124_vector r m R _ hn (sub_nonneg.2 h0) (by linarith) hR hm v
  simp only [sub_add_cancel] at hV
  have hR' : Rᵀᵀ * Rᵀ = 1 := by rw [transpose_transpose]; exact mul_eq_one_comm.1 hR
  have lA : ∀ v, len (v ᵥ* R) = len v := fun v => by rw [← mulVec_transpose, Fl.len_orth hR']
  have lB := Fl.len_orth hR
  have dA : ∀ u v, len (u ᵥ* R - v ᵥ* R) = len (u - v) := fun u v => by rw [← sub_vecMul, lA]
  have dB : ∀ u v, len (R *ᵥ u - R *ᵥ v) = len (u - v) := fun u v => by rw [← mulVec_sub, lB]
  have ba : ∀ v, R *ᵥ (v ᵥ* R) = v := fun v => by rw [← mulVec_transpose, mulVec_mulVec, mul_eq_one_comm.1 hR, one_mulVec]
  have ab : ∀ v, (R *ᵥ v) ᵥ* R = v := fun v => by rw [← mulVec_transpose, mulVec_mulVec, hR, one_mulVec]
  exact ⟨Fl.parent_err r hE h1 dA lA (fun v => (hV v).2) x o, (Fl.local_err r hE h1 dA dB lB lA ab (fun v => (hV v).2) (fun v => (hV v).1) x o).1,
    Fl.there_and_back r hE h1 dA lA dB lB ba (fun v => (hV v).2) (fun v => (hV v).1) x o,
    (Fl.local_err r hE h1 dA dB lB lA ab (fun v => (hV v).2) (fun v => (hV v).1) x o).2⟩

/-- C125, quaternions: the same for frames given by a quaternion that stands for the unit quaternion `u`. -/
theorem C125_quaternion (r : Rounding 53) (q : Quat) (u : ℍ[ℝ]) (δ : ℝ) (hu : ‖u‖ = 1) (hq : ‖toH q - u‖ ≤ δ) (hδ : δ ≤ 1 / 100) (x o : Pt 3) :
    len ((Fl.toParentQ r x o q).elem - (o.elem + act u x.elem)) ≤ (2 * (13 * δ + 20 * epsilon) + 3 * 2 ^ (-53 : ℤ)) * len x.elem + 2 ^ (-53 : ℤ) * len o.elem ∧
    len ((Fl.toLocalQ r x o q).elem - act u⁻¹ (x.elem - o.elem)) ≤ (2 * (13 * δ + 20 * epsilon) + 3 * 2 ^ (-53 : ℤ)) * len (x.elem - o.elem) ∧
    len ((Fl.toLocalQ r (Fl.toParentQ r x o q) o q).elem - x.elem) ≤
      (3 * (13 * δ + 20 * epsilon) + 6 * 2 ^ (-53 : ℤ)) * len x.elem + 2 * 2 ^ (-53 : ℤ) * len o.elem ∧
    len ((Fl.toParentQ r (Fl.toLocalQ r x o q) o q).elem - x.elem) ≤
      (6 * (13 * δ + 20 * epsilon) + 8 * 2 ^ (-53 : ℤ)) * len (x.elem - o.elem) + 2 ^ (-53 : ℤ) * len o.elem := by
  have he := epsilon_pos
  have he2 := epsilon_lt
  norm_num at he2
  have δ0 := (norm_nonneg _).trans hq
  have hE : 0 ≤ 13 * δ + 20 * epsilon := by linarith
  have h1 : 13 * δ + 20 * epsilon ≤ 1 / 4 := by linarith
  have hinv : u⁻¹ = star u := inv_of_unit (normSq_eq_one.2 hu)
  rw [hinv]
  have hu' := normSq_eq_one.2 hu
  have hs' := star_unit hu'
  have hF := fun v => C123_rotate r v q u δ hu hq hδ
  have hG := fun v => C123_rotate r v q.inverse (star u) δ (by rw [_root_.norm_star, hu]) (by rw [toH_inverse, ← star_sub, _root_.norm_star]; exact hq) hδ
  have dA : ∀ a b, len (act u a - act u b) = len (a - b) := fun a b => by rw [← act_sub hu', len_act hu']
  have dB : ∀ a b, len (act (star u) a - act (star u) b) = len (a - b) := fun a b => by rw [← act_sub hs', len_act hs']
  exact ⟨Fl.parent_err r hE h1 dA (len_act hu') hF x o, (Fl.local_err r hE h1 dA dB (len_act hs') (len_act hu') (act_act_star hu') hF hG x o).1,
    Fl.there_and_back r hE h1 dA (len_act hu') dB (len_act hs') (act_star_act hu') hF hG x o,
    (Fl.local_err r hE h1 dA dB (len_act hs') (len_act hu') (act_act_star hu') hF hG x o).2⟩

/-- C125, rotation about a point: `x` turned about `p` keeps its distance to `p`, up to the error of the rotation and half a unit in the last place of `p`. -/
theorem C125_about (r : Rounding 53) (m : RotMat n) (R : Matrix (Fin n) (Fin n) ℝ) (E : ℝ) (hn : n < 2 ^ 52) (hR : Rᵀ * R = 1)
    (h0 : 2 * n * (n + 1) * 2 ^ (-52 : ℤ) ≤ E) (h1 : E ≤ 1 / 4) (hm : Stands m.elem R (E - 2 * n * (n + 1) * 2 ^ (-52 : ℤ))) (x p : Pt n) :
    len ((Fl.ptRotate r x m p).elem - (p.elem + (x.elem - p.elem) ᵥ* R)) ≤ (2 * E + 3 * 2 ^ (-53 : ℤ)) * len (x.elem - p.elem) + 2 ^ (-53 : ℤ) * len p.elem := by
  have u0 : (0 : ℝ) ≤ 2 ^ (-53 : ℤ) := by positivity
  have u1 : (2 : ℝ) ^ (-53 : ℤ) ≤ 1 / 1000000 := by norm_num
  have hκ : (0 : ℝ) ≤ 2 * n * (n + 1) * 2 ^ (-52 : ℤ) := by positivity
  have hE : 0 ≤ E := hκ.trans h0
  have hV := (C124_vector r m R _ hn (sub_nonneg.2 h0) (by linarith) hR hm (Fl.ptSub r x p)).2
  simp only [sub_add_cancel] at hV
  have hR' : Rᵀᵀ * Rᵀ = 1 := by rw [transpose_transpose]; exact mul_eq_one_comm.1 hR
  have lA : ∀ v, len (v ᵥ* R) = len v := fun v => by rw [← mulVec_transpose, Fl.len_orth hR']
  have hD := len_nonneg (x.elem - p.elem)
  have a1 : len ((Fl.ptSub r x p).elem - (x.elem - p.elem)) ≤ 2 ^ (-53 : ℤ) * len (x.elem - p.elem) := Fl.len_round r (x.elem - p.elem)
  have a3 : len ((Fl.ptRotate r x m p).elem - (p.elem + (Fl.vecMat r m (Fl.ptSub r x p)).elem)) ≤
      2 ^ (-53 : ℤ) * len (p.elem + (Fl.vecMat r m (Fl.ptSub r x p)).elem) := Fl.len_round r _
  generalize (Fl.ptRotate r x m p).elem = q at *
  generalize (Fl.vecMat r m (Fl.ptSub r x p)).elem = y at *
  generalize (Fl.ptSub r x p).elem = a at *
  generalize x.elem - p.elem = d at *
  generalize p.elem = p at *
  generalize (2 : ℝ) ^ (-53 : ℤ) = t at *
  have l1 : len a ≤ (1 + t) * len d := by
    have := len_add_le (a - d) d; rw [sub_add_cancel] at this; linarith
  have d1 : len (y - d ᵥ* R) ≤ E * len a + t * len d := by
    have := len_triangle y (a ᵥ* R) (d ᵥ* R); rw [← sub_vecMul, lA] at this; linarith
  have l2 : len y ≤ (1 + E) * len a := by
    have := len_add_le (y - a ᵥ* R) (a ᵥ* R); rw [sub_add_cancel, lA] at this; linarith
  have l3 := len_add_le p y
  have t1 := len_triangle q (p + y) (p + d ᵥ* R)
  rw [add_sub_add_left_eq_sub] at t1
  have ha0 := len_nonneg a
  generalize len d = X at *
  generalize len p = O at *
  generalize len y = Y at *
  generalize len a = a at *
  have ta : a ≤ (1 + 1 / 1000000) * X := l1.trans (mul_le_mul_of_nonneg_right (by linarith) hD)
  have tY : Y ≤ 13 / 10 * X := by
    have := mul_le_mul_of_nonneg_right (show 1 + E ≤ 5 / 4 by linarith) ha0
    linarith
  have t2 := mul_le_mul_of_nonneg_left l3 u0
  have t3 := mul_le_mul_of_nonneg_left tY u0
  have t4 := mul_le_mul_of_nonneg_left ta hE
  have t5 := mul_nonneg hE hD
  have t6 := mul_nonneg u0 hD
  linarith

/-- The matrix with rows (3/5, 4/5) and (-4/5, 3/5), each entry rounded to a double. -/
noncomputable def Fl.turn35 (r : Rounding 53) : RotMat 2 := ⟨Matrix.of ![![r (3 / 5), r (4 / 5)], ![r (-4 / 5), r (3 / 5)]], false, true, 1⟩

theorem Fl.turn35_stands (r : Rounding 53) : Stands (Fl.turn35 r).elem (Matrix.of ![![3 / 5, 4 / 5], ![-4 / 5, 3 / 5]]) (2 ^ (-52 : ℤ)) := by
  intro v
  rw [← sub_mulVec]
  have hn : r (-4 / 5 : ℝ) = - r (4 / 5) := by rw [show (-4 / 5 : ℝ) = -(4 / 5) by ring]; exact r.odd _
  have e1 := r.err Fl.pos53 (3 / 5)
  have e2 := r.err Fl.pos53 (4 / 5)
  rw [Fl.u53, abs_of_pos (by norm_num : (0 : ℝ) < 3 / 5)] at e1
  rw [Fl.u53, abs_of_pos (by norm_num : (0 : ℝ) < 4 / 5)] at e2
  have h2 : (2 : ℝ) ^ (-53 : ℤ) = 2 ^ (-52 : ℤ) / 2 := by norm_num
  rw [h2] at e1 e2
  have hz : (0 : ℝ) ≤ 2 ^ (-52 : ℤ) := by positivity
  refine Real.sqrt_le_iff.2 ⟨mul_nonneg hz (len_nonneg _), ?_⟩
  rw [mul_pow, len_sq]
  simp only [Fl.turn35, hn, dotProduct, mulVec, Fin.sum_univ_two, Matrix.sub_apply, Matrix.of_apply, cons_val_zero, cons_val_one]
  generalize (2 : ℝ) ^ (-52 : ℤ) = t at *
  generalize r (3 / 5 : ℝ) = c at *
  generalize r (4 / 5 : ℝ) = s at *
  have q1 : (c - 3 / 5) ^ 2 ≤ (t / 2) ^ 2 := sq_le_sq' (by have := abs_le.1 e1; linarith) (by have := abs_le.1 e1; linarith)
  have q2 : (s - 4 / 5) ^ 2 ≤ (t / 2) ^ 2 := sq_le_sq' (by have := abs_le.1 e2; linarith) (by have := abs_le.1 e2; linarith)
  have q3 : (c - 3 / 5) ^ 2 + (s - 4 / 5) ^ 2 ≤ t ^ 2 := by nlinarith [sq_nonneg t]
  have q4 := mul_le_mul_of_nonneg_right q3 (show 0 ≤ v 0 * v 0 + v 1 * v 1 by nlinarith [mul_self_nonneg (v 0), mul_self_nonneg (v 1)])
  refine le_trans (le_of_eq ?_) q4
  ring

/-- Going to the frame turned by that matrix and moved to (1, 1), and back, gives the point (3, -2) back up to 10⁻¹³. -/
example (r : Rounding 53) :
    len ((Fl.toLocal r (Fl.toParent r ⟨![3, -2], true⟩ ⟨![1, 1], true⟩ (Fl.turn35 r)) ⟨![1, 1], true⟩ (Fl.turn35 r)).elem - ![3, -2]) ≤ 1 / 10 ^ 13 := by
  have hR : (Matrix.of ![![3 / 5, 4 / 5], ![-4 / 5, 3 / 5]] : Matrix (Fin 2) (Fin 2) ℝ)ᵀ * Matrix.of ![![3 / 5, 4 / 5], ![-4 / 5, 3 / 5]] = 1 := by
    ext i j; fin_cases i <;> fin_cases j <;> simp [Matrix.mul_apply, Fin.sum_univ_two] <;> norm_num
  have h := (C125_matrix r (Fl.turn35 r) _ (13 * 2 ^ (-52 : ℤ)) (by norm_num) hR (by norm_num) (by norm_num)
    (by intro v; refine (Fl.turn35_stands r v).trans (mul_le_mul_of_nonneg_right ?_ (len_nonneg _)); norm_num) ⟨![3, -2], true⟩ ⟨![1, 1], true⟩).2.2.1
  refine h.trans ?_
  have l1 : len (![3, -2] : Fin 2 → ℝ) ≤ 4 := Real.sqrt_le_iff.2 ⟨by norm_num, by simp [dotProduct, Fin.sum_univ_two]; norm_num⟩
  have l2 : len (![1, 1] : Fin 2 → ℝ) ≤ 2 := Real.sqrt_le_iff.2 ⟨by norm_num, by simp [dotProduct, Fin.sum_univ_two]; norm_num⟩
  have t1 := mul_le_mul_of_nonneg_left l1 (show (0 : ℝ) ≤ 3 * (13 * 2 ^ (-52 : ℤ)) + 6 * 2 ^ (-53 : ℤ) by positivity)
  have t2 := mul_le_mul_of_nonneg_left l2 (show (0 : ℝ) ≤ 2 * 2 ^ (-53 : ℤ) by positivity)
  refine (add_le_add t1 t2).trans ?_
  norm_num

end WFMath
