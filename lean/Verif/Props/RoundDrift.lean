/- Property theorems C137, products: chains of products of rotation matrices with their renormalisation, in floating point. -/
import Verif.Props.RoundNorm

namespace WFMath
open Spec Matrix Gauss
variable {n : Nat}

/-- The matrix `m` changes the length of no vector by more than `δ` times that length, from either side. -/
def Spec.KeepsLength (m : Matrix (Fin n) (Fin n) ℝ) (δ : ℝ) : Prop := ∀ v, |len (m *ᵥ v) - len v| ≤ δ * len v ∧ |len (v ᵥ* m) - len v| ≤ δ * len v

/-- Rotation matrices of doubles made by a program: the identity, matrices (with their age set by the library, at least 1) that keep lengths up to `κ`, inverses, and the four
products. A product that renormalises, because the ages add up to 20, must satisfy `good` before it does so. -/
inductive Spec.Turns (r : Rounding 53) (good : Matrix (Fin n) (Fin n) ℝ → Prop) (κ : ℝ) : RotMat n → Prop
  | identity : Turns r good κ RotMat.identity
  | start (m : RotMat n) : m.valid = true → (∀ i j, IsFl 53 (m.elem i j)) → 1 ≤ m.age → KeepsLength m.elem κ → Turns r good κ m
  | inverse (m : RotMat n) : Turns r good κ m → Turns r good κ m.inverse
  | prod (a b : RotMat n) : Turns r good κ a → Turns r good κ b → (20 ≤ a.age + b.age → good (Fl.prod r a b).elem) → Turns r good κ (Fl.prodFull r doubleLimits a b)
  | prodInv (a b : RotMat n) : Turns r good κ a → Turns r good κ b → (20 ≤ a.age + b.age → good (Fl.prodInv r a b).elem) → Turns r good κ (Fl.prodInvFull r doubleLimits a b)
  | invProd (a b : RotMat n) : Turns r good κ a → Turns r good κ b → (20 ≤ a.age + b.age → good (Fl.invProd r a b).elem) → Turns r good κ (Fl.invProdFull r doubleLimits a b)
  | invProdInv (a b : RotMat n) : Turns r good κ a → Turns r good κ b → (20 ≤ a.age + b.age → good (Fl.invProdInv r a b).elem) →
      Turns r good κ (Fl.invProdInvFull r doubleLimits a b)

namespace Fl

theorem keeps_transpose {m : Matrix (Fin n) (Fin n) ℝ} {δ : ℝ} (h : KeepsLength m δ) : KeepsLength mᵀ δ := fun v =>
  ⟨by rw [mulVec_transpose]; exact (h v).2, by rw [vecMul_transpose]; exact (h v).1⟩

theorem keeps_mono {m : Matrix (Fin n) (Fin n) ℝ} {δ δ' : ℝ} (h : KeepsLength m δ) (hd : δ ≤ δ') : KeepsLength m δ' := fun v =>
  ⟨(h v).1.trans (mul_le_mul_of_nonneg_right hd (len_nonneg _)), (h v).2.trans (mul_le_mul_of_nonneg_right hd (len_nonneg _))⟩

theorem keeps_one {δ : ℝ} (hδ : 0 ≤ δ) : KeepsLength (1 : Matrix (Fin n) (Fin n) ℝ) δ := fun v => by
  rw [one_mulVec, vecMul_one, sub_self, abs_zero]
  exact ⟨mul_nonneg hδ (len_nonneg _), mul_nonneg hδ (len_nonneg _)⟩

theorem keeps_mul_aux {A B : Matrix (Fin n) (Fin n) ℝ} {α β : ℝ} (hα : 0 ≤ α) (hA : ∀ v, |len (A *ᵥ v) - len v| ≤ α * len v) (hB : ∀ v, |len (B *ᵥ v) - len v| ≤ β * len v)
    (v : Fin n → ℝ) : |len ((A * B) *ᵥ v) - len v| ≤ (α + β + α * β) * len v := by
  rw [← mulVec_mulVec]
  have h1 := hA (B *ᵥ v)
  have h2 := hB v
  have h3 : len (B *ᵥ v) ≤ (1 + β) * len v := by have := (_root_.abs_le.1 h2).2; linarith
  have h4 := abs_sub_le (len (A *ᵥ B *ᵥ v)) (len (B *ᵥ v)) (len v)
  have h5 := mul_le_mul_of_nonneg_left h3 hα
  linarith

theorem keeps_col {m : Matrix (Fin n) (Fin n) ℝ} {δ : ℝ} (h : KeepsLength m δ) (j : Fin n) : len (fun i => m i j) ≤ 1 + δ := by
  have := (h (Pi.single j 1)).1
  rw [len_single, mul_one, mulVec_single_one] at this
  have := (_root_.abs_le.1 this).2
  show len (m.col j) ≤ _
  linarith

/-- The rounded product of two matrices. -/
theorem keeps_prod (r : Rounding 53) {A B : Matrix (Fin n) (Fin n) ℝ} {α β : ℝ} (hn : n ≤ 3) (hα : 0 ≤ α) (hβ : 0 ≤ β) (hα1 : α ≤ 1 / 1000) (hβ1 : β ≤ 1 / 1000)
    (hA : KeepsLength A α) (hB : KeepsLength B β) :
    KeepsLength (Matrix.of fun i j => sum r fun k => r (A i k * B k j)) (α + β + α * β + 13 * 2 ^ (-52 : ℤ)) := by
  have e := entries_err r (fun i k => A i k) (fun j k => B k j) (A := 1 + α) (B := 1 + β) (by linarith) (by linarith)
    (fun i => keeps_col (keeps_transpose hA) i) (fun j => keeps_col hB j) (by omega)
  have hη : (n : ℝ) * (n + 1) * 2 ^ (-52 : ℤ) * ((1 + α) * (1 + β)) ≤ 13 * 2 ^ (-52 : ℤ) := by
    have hn' : (n : ℝ) ≤ 3 := by exact_mod_cast hn
    have h1 : (n : ℝ) * (n + 1) ≤ 3 * (3 + 1) := by gcongr
    have h2 : (1 + α) * (1 + β) ≤ (1 + 1 / 1000) * (1 + 1 / 1000) := by gcongr
    have h3 : (n : ℝ) * (n + 1) * ((1 + α) * (1 + β)) ≤ 3 * (3 + 1) * ((1 + 1 / 1000) * (1 + 1 / 1000)) := by gcongr
    have : (0 : ℝ) < 2 ^ (-52 : ℤ) := by positivity
    calc (n : ℝ) * (n + 1) * 2 ^ (-52 : ℤ) * ((1 + α) * (1 + β)) = (n : ℝ) * (n + 1) * ((1 + α) * (1 + β)) * 2 ^ (-52 : ℤ) := by ring
      _ ≤ 13 * 2 ^ (-52 : ℤ) := mul_le_mul_of_nonneg_right (h3.trans (by norm_num)) this.le
  have hAB : (Matrix.of fun i j => (fun k => A i k) ⬝ᵥ fun k => B k j) = A * B := by ext i j; rfl
  rw [hAB] at e
  have hη0 : 0 ≤ (n : ℝ) * (n + 1) * 2 ^ (-52 : ℤ) * ((1 + α) * (1 + β)) := by positivity
  generalize (n : ℝ) * (n + 1) * 2 ^ (-52 : ℤ) * ((1 + α) * (1 + β)) = η at *
  generalize (13 : ℝ) * 2 ^ (-52 : ℤ) = η' at *
  set C : Matrix (Fin n) (Fin n) ℝ := Matrix.of fun i j => sum r fun k => r (A i k * B k j) with hC
  have aux : ∀ {C' D : Matrix (Fin n) (Fin n) ℝ}, (∀ v, len (C' *ᵥ v - D *ᵥ v) ≤ η * len v) → (∀ v, |len (D *ᵥ v) - len v| ≤ (α + β + α * β) * len v) →
      ∀ v, |len (C' *ᵥ v) - len v| ≤ (α + β + α * β + η') * len v := by
    intro C' D h1 h2 v
    have h3 : |len (C' *ᵥ v) - len (D *ᵥ v)| ≤ len (C' *ᵥ v - D *ᵥ v) := by
      rw [_root_.abs_le]
      have a1 := len_add_le (C' *ᵥ v - D *ᵥ v) (D *ᵥ v)
      rw [sub_add_cancel] at a1
      have a2 := len_add_le (D *ᵥ v - C' *ᵥ v) (C' *ᵥ v)
      rw [sub_add_cancel, ← neg_sub, len_neg] at a2
      constructor <;> linarith
    have h4 := abs_sub_le (len (C' *ᵥ v)) (len (D *ᵥ v)) (len v)
    have h5 := mul_le_mul_of_nonneg_right hη (len_nonneg v)
    have := h1 v
    have := h2 v
    linarith
  intro v
  refine ⟨aux e (keeps_mul_aux hα (fun v => (hA v).1) (fun v => (hB v).1)) v, ?_⟩
  rw [← mulVec_transpose]
  refine aux (D := (A * B)ᵀ) (stands_transpose hη0 e) (fun w => ?_) v
  rw [transpose_mul]
  have := keeps_mul_aux hβ (fun v => (keeps_transpose hB v).1) (fun v => (keeps_transpose hA v).1) w
  rw [add_comm β α, mul_comm β α] at this
  exact this

/-- A sum with one term is exact. -/
theorem sum_one (r : Rounding 53) (f : Fin n → ℝ) (i : Fin n) (hi : IsFl 53 (f i)) (h : ∀ k, k ≠ i → f k = 0) : sum r f = f i := by
  have skip : ∀ (l : List (Fin n)) (s : ℝ), IsFl 53 s → i ∉ l → l.foldl (fun s k => r (s + f k)) s = s := by
    intro l
    induction l with
    | nil => intros; rfl
    | cons k l ih =>
      intro s hs hk
      rw [List.mem_cons, not_or] at hk
      rw [List.foldl_cons, h k (Ne.symm hk.1), add_zero, r.of_fl hs]
      exact ih s hs hk.2
  have main : ∀ l : List (Fin n), l.Nodup → i ∈ l → l.foldl (fun s k => r (s + f k)) 0 = f i := by
    intro l
    induction l with
    | nil => intro _ h; cases h
    | cons k l ih =>
      intro hd hm
      rw [List.nodup_cons] at hd
      rw [List.foldl_cons, zero_add]
      by_cases hk : k = i
      · rw [hk, r.of_fl hi]
        exact skip l _ hi (hk ▸ hd.1)
      · rw [h k hk, r.zero]
        exact ih hd.2 ((List.mem_cons.1 hm).resolve_left (Ne.symm hk))
  exact main _ (List.nodup_finRange n) (List.mem_finRange i)

theorem one_prod (r : Rounding 53) {B : Matrix (Fin n) (Fin n) ℝ} (hB : ∀ i j, IsFl 53 (B i j)) : (Matrix.of fun i j => sum r fun k => r ((1 : Matrix (Fin n) (Fin n) ℝ) i k * B k j)) = B := by
  ext i j
  rw [Matrix.of_apply, sum_one r _ i]
  · rw [one_apply_eq, one_mul, r.of_fl (hB i j)]
  · exact r.isFl _
  · intro k hk; rw [one_apply_ne (Ne.symm hk), zero_mul, r.zero]

theorem prod_one (r : Rounding 53) {A : Matrix (Fin n) (Fin n) ℝ} (hA : ∀ i j, IsFl 53 (A i j)) : (Matrix.of fun i j => sum r fun k => r (A i k * (1 : Matrix (Fin n) (Fin n) ℝ) k j)) = A := by
  ext i j
  rw [Matrix.of_apply, sum_one r _ j]
  · rw [one_apply_eq, mul_one, r.of_fl (hA i j)]
  · exact r.isFl _
  · intro k hk; rw [one_apply_ne hk, mul_zero, r.zero]

theorem sum_isFl (r : Rounding 53) (f : Fin n → ℝ) : IsFl 53 (sum r f) := by
  unfold sum
  generalize List.finRange n = l
  rcases List.eq_nil_or_concat l with h | ⟨l, a, h⟩
  · rw [h]; exact IsFl.zero
  · rw [h, List.concat_eq_append, List.foldl_append]; exact r.isFl _

/-- What is kept: exact while the age is 0, and off by `κ` for every second step of the age. -/
def Fresh (κ : ℝ) (m : RotMat n) : Prop :=
  m.valid = true ∧ (∀ i j, IsFl 53 (m.elem i j)) ∧ (m.age = 0 ∧ m.elem = 1 ∨ 1 ≤ m.age ∧ KeepsLength m.elem ((2 * (min m.age 20 : ℕ) - 1) * κ))

theorem Fresh.le {κ : ℝ} (hκ : 0 ≤ κ) {m : RotMat n} (h : Fresh κ m) : KeepsLength m.elem (39 * κ) := by
  rcases h.2.2 with ⟨_, h⟩ | ⟨_, h⟩
  · rw [h]; exact keeps_one (by positivity)
  · refine keeps_mono h (mul_le_mul_of_nonneg_right ?_ hκ)
    have : ((min m.age 20 : ℕ) : ℝ) ≤ 20 := by exact_mod_cast min_le_right _ _
    linarith

/-- One product: `A` and `B` are the arrays multiplied, the one of `a` or `b` or its transpose. -/
theorem fresh_prod (r : Rounding 53) (good : Matrix (Fin n) (Fin n) ℝ → Prop) {κ : ℝ} (hn : n ≤ 3) (hκ : 2 ^ (-46 : ℤ) ≤ κ) (hκ' : κ ≤ 1 / 2 ^ 20)
    (hnorm : ∀ m : RotMat n, m.valid = true → (∀ i j, IsFl 53 (m.elem i j)) → KeepsLength m.elem (80 * κ) → good m.elem → KeepsLength (rotNormalize r doubleLimits m).elem κ ∧
      (rotNormalize r doubleLimits m).age = 1 ∧ (rotNormalize r doubleLimits m).valid = true ∧ ∀ i j, IsFl 53 ((rotNormalize r doubleLimits m).elem i j))
    (a b : RotMat n) (A B : Matrix (Fin n) (Fin n) ℝ) (ha : Fresh κ a) (hb : Fresh κ b) (hA : A = a.elem ∨ A = a.elemᵀ) (hB : B = b.elem ∨ B = b.elemᵀ)
    (c : RotMat n) (hc : c = ⟨Matrix.of fun i j => sum r fun k => r (A i k * B k j), a.flip != b.flip, a.valid && b.valid, a.age + b.age⟩)
    (hg : 20 ≤ a.age + b.age → good c.elem) : Fresh κ (checkNormalization r doubleLimits c) := by
  have hκ0 : 0 < κ := lt_of_lt_of_le (by positivity) hκ
  have hround : (13 : ℝ) * 2 ^ (-52 : ℤ) ≤ κ / 2 := by
    have : (13 : ℝ) * 2 ^ (-52 : ℤ) ≤ 2 ^ (-46 : ℤ) / 2 := by norm_num
    exact this.trans (div_le_div_of_nonneg_right hκ (by norm_num))
  have hval : c.valid = true := by rw [hc]; simp [ha.1, hb.1]
  have hfl : ∀ i j, IsFl 53 (c.elem i j) := fun i j => by rw [hc]; exact sum_isFl r _
  have hAfl : ∀ i j, IsFl 53 (A i j) := fun i j => by
    rcases hA with h | h
    · rw [h]; exact ha.2.1 i j
    · rw [h]; exact ha.2.1 j i
  have hBfl : ∀ i j, IsFl 53 (B i j) := fun i j => by
    rcases hB with h | h
    · rw [h]; exact hb.2.1 i j
    · rw [h]; exact hb.2.1 j i
  have hAk : ∀ {δ}, KeepsLength a.elem δ → KeepsLength A δ := fun h => by
    rcases hA with e | e
    · rw [e]; exact h
    · rw [e]; exact keeps_transpose h
  have hBk : ∀ {δ}, KeepsLength b.elem δ → KeepsLength B δ := fun h => by
    rcases hB with e | e
    · rw [e]; exact h
    · rw [e]; exact keeps_transpose h
  have hA1 : a.elem = 1 → A = 1 := fun h => by
    rcases hA with e | e
    · rw [e, h]
    · rw [e, h, transpose_one]
  have hB1 : b.elem = 1 → B = 1 := fun h => by
    rcases hB with e | e
    · rw [e, h]
    · rw [e, h, transpose_one]
  have hage : c.age = a.age + b.age := by rw [hc]
  have helem : c.elem = Matrix.of fun i j => sum r fun k => r (A i k * B k j) := by rw [hc]
  -- before the renormalisation
  have pre : c.age = 0 ∧ c.elem = 1 ∨ 1 ≤ c.age ∧ KeepsLength c.elem (80 * κ) ∧ (c.age < 20 → KeepsLength c.elem ((2 * (c.age : ℝ) - 1) * κ)) := by
    rcases ha.2.2 with ⟨a0, a1⟩ | ⟨a0, a1⟩
    · have hAe := hA1 a1
      have e : c.elem = B := by rw [helem, hAe]; exact one_prod r hBfl
      rcases hb.2.2 with ⟨b0, b1⟩ | ⟨b0, b1⟩
      · left; exact ⟨by omega, by rw [e, hB1 b1]⟩
      · right
        refine ⟨by omega, ?_, fun h20 => ?_⟩
        · rw [e]; exact keeps_mono (hBk (hb.le hκ0.le)) (by linarith)
        · have : min b.age 20 = c.age := by omega
          rw [this] at b1
          rw [e]; exact hBk b1
    · rcases hb.2.2 with ⟨b0, b1⟩ | ⟨b0, b1⟩
      · have hBe := hB1 b1
        have e : c.elem = A := by rw [helem, hBe]; exact prod_one r hAfl
        right
        refine ⟨by omega, ?_, fun h20 => ?_⟩
        · rw [e]; exact keeps_mono (hAk (ha.le hκ0.le)) (by linarith)
        · have : min a.age 20 = c.age := by omega
          rw [this] at a1
          rw [e]; exact hAk a1
      · right
        have small : 39 * κ ≤ 1 / 1000 := by linarith
        refine ⟨by omega, ?_, fun h20 => ?_⟩
        · rw [helem]
          refine keeps_mono (keeps_prod r hn (by positivity) (by positivity) small small (hAk (ha.le hκ0.le)) (hBk (hb.le hκ0.le))) ?_
          generalize (13 : ℝ) * 2 ^ (-52 : ℤ) = w at *
          clear hκ
          nlinarith
        · rw [helem]
          have x1 : (1 : ℝ) ≤ a.age := by exact_mod_cast a0
          have y1 : (1 : ℝ) ≤ b.age := by exact_mod_cast b0
          have x2 : (a.age : ℝ) ≤ 20 := by exact_mod_cast (by omega : a.age ≤ 20)
          have y2 : (b.age : ℝ) ≤ 20 := by exact_mod_cast (by omega : b.age ≤ 20)
          rw [show min a.age 20 = a.age by omega] at a1
          rw [show min b.age 20 = b.age by omega] at b1
          have p1 : (2 * (a.age : ℝ) - 1) * κ ≤ 39 * κ := mul_le_mul_of_nonneg_right (by linarith) hκ0.le
          have p2 : (2 * (b.age : ℝ) - 1) * κ ≤ 39 * κ := mul_le_mul_of_nonneg_right (by linarith) hκ0.le
          have q1 : 0 ≤ (2 * (a.age : ℝ) - 1) * κ := mul_nonneg (by linarith) hκ0.le
          have q2 : 0 ≤ (2 * (b.age : ℝ) - 1) * κ := mul_nonneg (by linarith) hκ0.le
          refine keeps_mono (keeps_prod r hn q1 q2 (by linarith) (by linarith) (hAk a1) (hBk b1)) ?_
          have hprod : (2 * (a.age : ℝ) - 1) * κ * ((2 * (b.age : ℝ) - 1) * κ) ≤ 39 * κ * (39 * κ) := mul_le_mul p1 p2 q2 (by positivity)
          have hsq : 39 * κ * (39 * κ) ≤ κ / 2 := by nlinarith
          rw [hage]
          push_cast
          generalize (13 : ℝ) * 2 ^ (-52 : ℤ) = w at *
          clear hκ
          linarith
  unfold checkNormalization
  split
  · rename_i h
    have h20 : 20 ≤ a.age + b.age := by have := h.1; rw [hage] at this; exact this
    rcases pre with ⟨p, _⟩ | ⟨_, p, _⟩
    · omega
    · obtain ⟨g1, g2, g3, g4⟩ := hnorm c hval hfl p (hg h20)
      refine ⟨g3, g4, Or.inr ⟨by omega, ?_⟩⟩
      rw [g2]
      refine keeps_mono g1 (le_of_eq ?_)
      norm_num
  · rename_i h
    have h20 : c.age < 20 := by
      by_contra hh
      exact h ⟨by show (30 * 2) / 3 ≤ _; omega, hval⟩
    refine ⟨hval, hfl, ?_⟩
    rcases pre with p | ⟨p1, _, p2⟩
    · exact Or.inl p
    · right
      refine ⟨p1, ?_⟩
      rw [show min c.age 20 = c.age by omega]
      exact p2 h20

theorem turns_fresh (r : Rounding 53) (good : Matrix (Fin n) (Fin n) ℝ → Prop) {κ : ℝ} (hn : n ≤ 3) (hκ : 2 ^ (-46 : ℤ) ≤ κ) (hκ' : κ ≤ 1 / 2 ^ 20)
    (hnorm : ∀ m : RotMat n, m.valid = true → (∀ i j, IsFl 53 (m.elem i j)) → KeepsLength m.elem (80 * κ) → good m.elem → KeepsLength (rotNormalize r doubleLimits m).elem κ ∧
      (rotNormalize r doubleLimits m).age = 1 ∧ (rotNormalize r doubleLimits m).valid = true ∧ ∀ i j, IsFl 53 ((rotNormalize r doubleLimits m).elem i j))
    (m : RotMat n) (h : Turns r good κ m) : Fresh κ m := by
  have hκ0 : 0 < κ := lt_of_lt_of_le (by positivity) hκ
  induction h with
  | identity => exact ⟨rfl, fun i j => isFl_id i j, Or.inl ⟨rfl, by ext i j; simp [RotMat.identity, Matrix.one_apply]⟩⟩
  | start m h1 h2 h3 h4 =>
    refine ⟨h1, h2, Or.inr ⟨h3, keeps_mono h4 (le_mul_of_one_le_left hκ0.le ?_)⟩⟩
    have : (1 : ℝ) ≤ (min m.age 20 : ℕ) := by exact_mod_cast le_min h3 (by norm_num)
    linarith
  | inverse m _ ih =>
    obtain ⟨h1, h2, h3⟩ := ih
    refine ⟨h1, fun i j => h2 j i, Or.inr ⟨Nat.le_add_left _ _, ?_⟩⟩
    have e : m.inverse.elem = m.elemᵀ := rfl
    have e2 : m.inverse.age = m.age + 1 := rfl
    rw [e, e2]
    rcases h3 with ⟨h3, h4⟩ | ⟨h3, h4⟩
    · rw [h4, transpose_one, h3]
      exact keeps_one (by norm_num; exact hκ0.le)
    · refine keeps_mono (keeps_transpose h4) (mul_le_mul_of_nonneg_right ?_ hκ0.le)
      have : ((min m.age 20 : ℕ) : ℝ) ≤ (min (m.age + 1) 20 : ℕ) := by exact_mod_cast (by omega)
      linarith
  | prod a b _ _ hg iha ihb => exact fresh_prod r good hn hκ hκ' hnorm a b _ _ iha ihb (Or.inl rfl) (Or.inl rfl) _ rfl hg
  | prodInv a b _ _ hg iha ihb => exact fresh_prod r good hn hκ hκ' hnorm a b _ _ iha ihb (Or.inl rfl) (Or.inr rfl) _ rfl hg
  | invProd a b _ _ hg iha ihb => exact fresh_prod r good hn hκ hκ' hnorm a b _ _ iha ihb (Or.inr rfl) (Or.inl rfl) _ rfl hg
  | invProdInv a b _ _ hg iha ihb => exact fresh_prod r good hn hκ hκ' hnorm a b _ _ iha ihb (Or.inr rfl) (Or.inr rfl) _ rfl hg

end Fl

/-- The entries of `m m^T - 1` for a matrix that keeps lengths. -/
theorem gram_of_keeps {m : Matrix (Fin n) (Fin n) ℝ} {δ : ℝ} (h0 : 0 ≤ δ) (h1 : δ ≤ 1 / 100) (h : KeepsLength m δ) (i j : Fin n) : |(m * mᵀ - 1) i j| ≤ 21 / 10 * δ := by
  have q : ∀ v : Fin n → ℝ, |(v ᵥ* m) ⬝ᵥ (v ᵥ* m) - v ⬝ᵥ v| ≤ 21 / 10 * δ * (v ⬝ᵥ v) := fun v => by
    rw [← len_sq, ← len_sq]
    have h2 := (h v).2
    have h3 := len_nonneg v
    have h4 := len_nonneg (v ᵥ* m)
    have e : len (v ᵥ* m) ^ 2 - len v ^ 2 = (len (v ᵥ* m) - len v) * (len (v ᵥ* m) + len v) := by ring
    rw [e, abs_mul, abs_of_nonneg (by linarith : 0 ≤ len (v ᵥ* m) + len v)]
    have h5 : len (v ᵥ* m) + len v ≤ 21 / 10 * len v := by
      have := (_root_.abs_le.1 h2).2
      nlinarith
    calc _ ≤ δ * len v * (21 / 10 * len v) := mul_le_mul h2 h5 (by linarith) (by positivity)
      _ = _ := by ring
  have g : ∀ k l, (m * mᵀ) k l = (Pi.single k 1 ᵥ* m) ⬝ᵥ (Pi.single l 1 ᵥ* m) := fun k l => by
    rw [single_one_vecMul, single_one_vecMul]; rfl
  by_cases hij : i = j
  · subst hij
    have := q (Pi.single i 1)
    rw [← g, dotProduct_single_one, Pi.single_eq_same, mul_one] at this
    rw [Matrix.sub_apply, one_apply_eq]
    exact this
  · have p1 := q (Pi.single i 1 + Pi.single j 1)
    have p2 := q (Pi.single i 1 - Pi.single j 1)
    rw [Matrix.add_vecMul] at p1
    rw [Matrix.sub_vecMul] at p2
    simp only [add_dotProduct, dotProduct_add, sub_dotProduct, dotProduct_sub, ← g, dotProduct_single_one, Pi.add_apply, Pi.sub_apply, Pi.single_eq_same, Pi.single_eq_of_ne hij, Pi.single_eq_of_ne (Ne.symm hij)] at p1 p2
    have hs : (m * mᵀ) j i = (m * mᵀ) i j := by
      rw [← Matrix.transpose_apply (m * mᵀ) i j, transpose_mul, transpose_transpose]
    rw [hs] at p1 p2
    rw [Matrix.sub_apply, one_apply_ne hij, sub_zero]
    have a1 := _root_.abs_le.1 p1
    have a2 := _root_.abs_le.1 p2
    rw [_root_.abs_le]
    constructor <;> linarith [a1.1, a1.2, a2.1, a2.2]

/-- A matrix with `m m^T` near 1 keeps lengths. -/
theorem keeps_of_gram {m : Matrix (Fin n) (Fin n) ℝ} {δ : ℝ} (h : ∀ i j, |(m * mᵀ - 1) i j| ≤ δ) (hn : 1 ≤ n) : KeepsLength m (n * (n * δ)) := by
  have hδ : 0 ≤ δ := (abs_nonneg _).trans (h ⟨0, hn⟩ ⟨0, hn⟩)
  have aux : ∀ (M : Matrix (Fin n) (Fin n) ℝ) (e : ℝ), (∀ i j, |(Mᵀ * M - 1) i j| ≤ e) → ∀ v, |len (M *ᵥ v) - len v| ≤ n * e * len v := by
    intro M e he v
    have e0 : 0 ≤ e := (abs_nonneg _).trans (he ⟨0, hn⟩ ⟨0, hn⟩)
    have hq : |len (M *ᵥ v) ^ 2 - len v ^ 2| ≤ n * e * len v ^ 2 := by
      have e1 : len (M *ᵥ v) ^ 2 - len v ^ 2 = v ⬝ᵥ ((Mᵀ * M - 1) *ᵥ v) := by
        rw [len_sq, len_sq, sub_mulVec, one_mulVec, dotProduct_sub, ← mulVec_mulVec, dotProduct_mulVec v Mᵀ, vecMul_transpose]
      rw [e1]
      have h2 : len ((Mᵀ * M - 1) *ᵥ v) ≤ n * e * len v := by
        have h3 : ∀ i, |((Mᵀ * M - 1) *ᵥ v) i| ≤ √n * e * len v := fun i =>
          (abs_dot_le_len _ _).trans (mul_le_mul_of_nonneg_right (Fl.len_comp_le e0 (he i)) (len_nonneg _))
        refine (Fl.len_comp_le (by have := len_nonneg v; positivity) h3).trans (le_of_eq ?_)
        have : √(n : ℝ) * √(n : ℝ) = n := Real.mul_self_sqrt (Nat.cast_nonneg n)
        calc √(n : ℝ) * (√n * e * len v) = (√n * √n) * e * len v := by ring
          _ = _ := by rw [this]
      calc _ ≤ len v * len ((Mᵀ * M - 1) *ᵥ v) := abs_dot_le_len _ _
        _ ≤ len v * (n * e * len v) := mul_le_mul_of_nonneg_left h2 (len_nonneg _)
        _ = _ := by ring
    have h3 := len_nonneg v
    have h4 := len_nonneg (M *ᵥ v)
    rcases eq_or_lt_of_le h3 with h5 | h5
    · rw [← h5] at hq ⊢
      have h6 : len (M *ᵥ v) ^ 2 = 0 := by
        have := abs_nonneg (len (M *ᵥ v) ^ 2 - 0 ^ 2)
        have h7 : |len (M *ᵥ v) ^ 2 - 0 ^ 2| = 0 := le_antisymm (by linarith) this
        have := abs_eq_zero.1 h7
        linarith
      rw [pow_eq_zero_iff (by norm_num)] at h6
      rw [h6]; simp
    · have e2 : len (M *ᵥ v) ^ 2 - len v ^ 2 = (len (M *ᵥ v) - len v) * (len (M *ᵥ v) + len v) := by ring
      rw [e2, abs_mul, abs_of_nonneg (by linarith : 0 ≤ len (M *ᵥ v) + len v)] at hq
      have h6 : |len (M *ᵥ v) - len v| * len v ≤ n * e * len v * len v := by
        have := mul_nonneg (abs_nonneg (len (M *ᵥ v) - len v)) h4
        nlinarith
      exact le_of_mul_le_mul_right h6 h5
  intro v
  constructor
  · exact aux m (n * δ) (columns_near h) v
  · rw [← mulVec_transpose]
    refine (aux mᵀ δ (by rw [transpose_transpose]; exact h) v).trans (mul_le_mul_of_nonneg_right ?_ (len_nonneg _))
    have : (1 : ℝ) ≤ n := by exact_mod_cast hn
    exact mul_le_mul_of_nonneg_left (le_mul_of_one_le_left hδ this) (by positivity)

/-- C137, any number of products in the plane: however many rotations are multiplied, in any order and with any of them inverted, the result changes no length by more than a
fixed fraction, if the first entry is at least `1/P` whenever a product is renormalised. -/
theorem C137_drift_plane_partial (r : Rounding 53) (P : ℝ) (hP : 1 ≤ P) (hP' : P ≤ 2 ^ 8) (m : RotMat 2)
    (h : Turns r (fun M => 1 / P ≤ |M 0 0|) (2 ^ (-44 : ℤ) * P ^ 2) m) : m.valid = true ∧ KeepsLength m.elem (2 ^ (-38 : ℤ) * P ^ 2) := by
  have hp2 : 1 ≤ P ^ 2 := one_le_pow₀ hP
  have hp2' : P ^ 2 ≤ 2 ^ 16 := (pow_le_pow_left₀ (by linarith) hP' 2).trans (by norm_num)
  have w1 : (2 : ℝ) ^ (-44 : ℤ) = 1 / 17592186044416 := by norm_num
  have w2 : (2 : ℝ) ^ (-47 : ℤ) = 1 / 140737488355328 := by norm_num
  have w3 : (2 : ℝ) ^ (-38 : ℤ) = 1 / 274877906944 := by norm_num
  rw [w1] at h
  rw [w3]
  have key := Fl.turns_fresh r _ (by norm_num) (by rw [show (2 : ℝ) ^ (-46 : ℤ) = 1 / 70368744177664 by norm_num]; linarith) (by norm_num at hp2' ⊢; linarith)
    (fun m hv hfl hk hg => by
      have hg' := gram_of_keeps (by positivity) (by norm_num at hp2' ⊢; linarith) hk
      obtain ⟨-, g1, g2, g3, g4, g5⟩ := C137_plane_partial r m hfl _ (by norm_num at hp2' ⊢; linarith) hg' P hP (hP'.trans (by norm_num)) hg
      refine ⟨Fl.keeps_mono (keeps_of_gram g4 (by norm_num)) ?_, g1, by rw [g3, hv], fun i j => ?_⟩
      · rw [w2]
        norm_num at hp2' ⊢
        nlinarith
      · unfold Fl.rotNormalize
        split
        · exact hfl i j
        · exact r.isFl _) m h
  exact ⟨key.1, Fl.keeps_mono (key.le (by positivity)) (by linarith)⟩

/-- C137, any number of products in space, if the two leading minors are at least `1/P` whenever a product is renormalised. -/
theorem C137_drift_space_partial (r : Rounding 53) (P : ℝ) (hP : 1 ≤ P) (hP' : P ≤ 16) (m : RotMat 3)
    (h : Turns r (fun M => 1 / P ≤ |M 0 0| ∧ 1 / P ≤ |M 0 0 * M 1 1 - M 0 1 * M 1 0|) (2 ^ (-41 : ℤ) * P ^ 5) m) :
    m.valid = true ∧ KeepsLength m.elem (2 ^ (-35 : ℤ) * P ^ 5) := by
  have hp2 : 1 ≤ P ^ 5 := one_le_pow₀ hP
  have hp2' : P ^ 5 ≤ 2 ^ 20 := (pow_le_pow_left₀ (by linarith) hP' 5).trans (by norm_num)
  have w1 : (2 : ℝ) ^ (-41 : ℤ) = 1 / 2199023255552 := by norm_num
  have w2 : (2 : ℝ) ^ (-45 : ℤ) = 1 / 35184372088832 := by norm_num
  have w3 : (2 : ℝ) ^ (-35 : ℤ) = 1 / 34359738368 := by norm_num
  rw [w1] at h
  rw [w3]
  have key := Fl.turns_fresh r _ (by norm_num) (by rw [show (2 : ℝ) ^ (-46 : ℤ) = 1 / 70368744177664 by norm_num]; linarith) (by norm_num at hp2' ⊢; linarith)
    (fun m hv hfl hk hg => by
      have hg' := gram_of_keeps (by positivity) (by norm_num at hp2' ⊢; linarith) hk
      obtain ⟨-, g1, g2, g3, g4, g5⟩ := C137_space_partial r m hfl _ (by norm_num at hp2' ⊢; linarith) hg' P hP (hP'.trans (by norm_num)) hg.1 hg.2
      refine ⟨Fl.keeps_mono (keeps_of_gram g4 (by norm_num)) ?_, g1, by rw [g3, hv], fun i j => ?_⟩
      · rw [w2]
        norm_num at hp2' ⊢
        generalize P ^ 5 = Q at *
        nlinarith
      · unfold Fl.rotNormalize
        split
        · exact hfl i j
        · exact r.isFl _) m h
  exact ⟨key.1, Fl.keeps_mono (key.le (by positivity)) (by linarith)⟩

/-- A half turn about the third axis. -/
def halfTurn : Matrix (Fin 3) (Fin 3) ℝ := !![-1, 0, 0; 0, -1, 0; 0, 0, 1]

/-- Its square, of two matrices of age 10, is renormalised, and meets the hypotheses of `C137_drift_space_partial`. -/
example (r : Rounding 53) : KeepsLength (Fl.prodFull r doubleLimits ⟨halfTurn, false, true, 10⟩ ⟨halfTurn, false, true, 10⟩).elem (2 ^ (-35 : ℤ) * 1 ^ 5) := by
  have s : Turns r (fun M : Matrix (Fin 3) (Fin 3) ℝ => 1 / 1 ≤ |M 0 0| ∧ 1 / 1 ≤ |M 0 0 * M 1 1 - M 0 1 * M 1 0|) (2 ^ (-41 : ℤ) * 1 ^ 5) ⟨halfTurn, false, true, 10⟩ := by
    refine .start _ rfl (fun i j => ?_) (by norm_num) (fun v => ?_)
    · have o := IsFl.one Fl.pos53
      fin_cases i <;> fin_cases j <;> first | exact o.neg | exact o | exact IsFl.zero
    · have e : len (halfTurn *ᵥ v) = len v := by
        unfold len; congr 1; simp [halfTurn, dotProduct, mulVec, Fin.sum_univ_three]
      have e' : len (v ᵥ* halfTurn) = len v := by
        unfold len; congr 1; simp [halfTurn, dotProduct, vecMul, Fin.sum_univ_three]
      rw [e, e', sub_self, abs_zero]
      exact ⟨mul_nonneg (by positivity) (len_nonneg _), mul_nonneg (by positivity) (len_nonneg _)⟩
  have o := r.of_fl (IsFl.one Fl.pos53)
  refine (C137_drift_space_partial r 1 le_rfl (by norm_num) _ (.prod _ _ s s (fun _ => ?_))).2
  constructor <;> simp [Fl.prod, Fl.sum, show List.finRange 3 = [0, 1, 2] from rfl, halfTurn, r.zero, o]

end WFMath
