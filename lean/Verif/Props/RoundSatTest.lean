/- Property theorems C135, continued: rotated boxes meeting boxes in space, computed in doubles. -/
import Verif.Props.RoundSat

namespace WFMath
open Spec Matrix Rounding

namespace Fl
variable {n : Nat}

/-- The values of a linear form on the points with coordinates between 0 and `s`. -/
theorem extents (q s : Fin n → ℝ) :
    (∀ y : Fin n → ℝ, (∀ k, min 0 (s k) ≤ y k ∧ y k ≤ max 0 (s k)) → ∑ k, min 0 (q k * s k) ≤ q ⬝ᵥ y ∧ q ⬝ᵥ y ≤ ∑ k, max 0 (q k * s k)) ∧
    (∃ y : Fin n → ℝ, (∀ k, min 0 (s k) ≤ y k ∧ y k ≤ max 0 (s k)) ∧ q ⬝ᵥ y = ∑ k, min 0 (q k * s k)) ∧
    ∃ y : Fin n → ℝ, (∀ k, min 0 (s k) ≤ y k ∧ y k ≤ max 0 (s k)) ∧ q ⬝ᵥ y = ∑ k, max 0 (q k * s k) := by
  have key : ∀ q s y : ℝ, min 0 s ≤ y → y ≤ max 0 s → min 0 (q * s) ≤ q * y ∧ q * y ≤ max 0 (q * s) := fun q s y h1 h2 => by
    have a1 := min_le_left 0 (q * s)
    have a2 := min_le_right 0 (q * s)
    have a3 := le_max_left 0 (q * s)
    have a4 := le_max_right 0 (q * s)
    rcases le_total 0 s with hs | hs
    · rw [min_eq_left hs] at h1
      rw [max_eq_right hs] at h2
      rcases le_total 0 q with hq | hq
      · have := mul_le_mul_of_nonneg_left h2 hq; have := mul_nonneg hq h1; constructor <;> linarith
      · have := mul_le_mul_of_nonpos_left h2 hq; have := mul_nonpos_of_nonpos_of_nonneg hq h1; constructor <;> linarith
    · rw [min_eq_right hs] at h1
      rw [max_eq_left hs] at h2
      rcases le_total 0 q with hq | hq
      · have := mul_le_mul_of_nonneg_left h1 hq; have := mul_nonpos_of_nonneg_of_nonpos hq h2; constructor <;> linarith
      · have := mul_le_mul_of_nonpos_left h1 hq; have := mul_nonneg_of_nonpos_of_nonpos hq h2; constructor <;> linarith
  have ends : ∀ s : ℝ, min 0 s ≤ 0 ∧ 0 ≤ max 0 s ∧ min 0 s ≤ s ∧ s ≤ max 0 s := fun s => ⟨min_le_left _ _, le_max_left _ _, min_le_right _ _, le_max_right _ _⟩
  refine ⟨fun y hy => ⟨Finset.sum_le_sum fun k _ => (key _ _ _ (hy k).1 (hy k).2).1, Finset.sum_le_sum fun k _ => (key _ _ _ (hy k).1 (hy k).2).2⟩,
    ⟨fun k => if q k * s k ≤ 0 then s k else 0, fun k => ?_, Finset.sum_congr rfl fun k _ => ?_⟩, ⟨fun k => if q k * s k ≤ 0 then 0 else s k, fun k => ?_, Finset.sum_congr rfl fun k _ => ?_⟩⟩
  · have := ends (s k)
    dsimp only
    split_ifs <;> constructor <;> linarith [this.1, this.2.1, this.2.2.1, this.2.2.2]
  · dsimp only
    split_ifs with h
    · rw [min_eq_right h]
    · rw [min_eq_left (not_le.1 h).le, mul_zero]
  · have := ends (s k)
    dsimp only
    split_ifs <;> constructor <;> linarith [this.1, this.2.1, this.2.2.1, this.2.2.2]
  · dsimp only
    split_ifs with h
    · rw [max_eq_left h, mul_zero]
    · rw [max_eq_right (not_le.1 h).le]

/-- The extents of a turned box along a direction. -/
theorem turned_extents (R : Matrix (Fin n) (Fin n) ℝ) (hR : Rᵀ * R = 1) (c s α : Fin n → ℝ) :
    (∀ x ∈ turnedBox c s R 0, α ⬝ᵥ c + ∑ k, min 0 ((R *ᵥ α) k * s k) ≤ α ⬝ᵥ x ∧ α ⬝ᵥ x ≤ α ⬝ᵥ c + ∑ k, max 0 ((R *ᵥ α) k * s k)) ∧
    (∃ x ∈ turnedBox c s R 0, α ⬝ᵥ x = α ⬝ᵥ c + ∑ k, min 0 ((R *ᵥ α) k * s k)) ∧ ∃ x ∈ turnedBox c s R 0, α ⬝ᵥ x = α ⬝ᵥ c + ∑ k, max 0 ((R *ᵥ α) k * s k) := by
  have hR' : R * Rᵀ = 1 := mul_eq_one_comm.1 hR
  obtain ⟨e1, ⟨y, hy, ey⟩, ⟨z, hz, ez⟩⟩ := extents (R *ᵥ α) s
  have dot : ∀ v, (R *ᵥ α) ⬝ᵥ (R *ᵥ v) = α ⬝ᵥ v := fun v => by
    rw [dotProduct_mulVec, ← mulVec_transpose, mulVec_mulVec, hR, one_mulVec]
  have back : ∀ v, R *ᵥ (c + Rᵀ *ᵥ v - c) = v := fun v => by rw [add_sub_cancel_left, mulVec_mulVec, hR', one_mulVec]
  have val : ∀ v, α ⬝ᵥ (c + Rᵀ *ᵥ v) = α ⬝ᵥ c + (R *ᵥ α) ⬝ᵥ v := fun v => by
    rw [dotProduct_add, ← dot (Rᵀ *ᵥ v), mulVec_mulVec, hR', one_mulVec]
  refine ⟨fun x hx => ?_, ⟨c + Rᵀ *ᵥ y, fun k => ?_, by rw [val, ey]⟩, ⟨c + Rᵀ *ᵥ z, fun k => ?_, by rw [val, ez]⟩⟩
  · have := e1 (R *ᵥ (x - c)) fun k => by have := hx k; rwa [sub_zero, add_zero] at this
    rw [dot, dotProduct_sub] at this
    constructor <;> linarith [this.1, this.2]
  · rw [back, sub_zero, add_zero]; exact hy k
  · rw [back, sub_zero, add_zero]; exact hz k

/-- The extents of a box along a direction. -/
theorem box_extents (a : Box n) (ho : Ordered a) (α : Fin n → ℝ) :
    (∀ x ∈ boxSet a, α ⬝ᵥ a.low.elem + ∑ k, min 0 (α k * (a.high.elem - a.low.elem) k) ≤ α ⬝ᵥ x ∧ α ⬝ᵥ x ≤ α ⬝ᵥ a.low.elem + ∑ k, max 0 (α k * (a.high.elem - a.low.elem) k)) ∧
    (∃ x ∈ boxSet a, α ⬝ᵥ x = α ⬝ᵥ a.low.elem + ∑ k, min 0 (α k * (a.high.elem - a.low.elem) k)) ∧
    ∃ x ∈ boxSet a, α ⬝ᵥ x = α ⬝ᵥ a.low.elem + ∑ k, max 0 (α k * (a.high.elem - a.low.elem) k) := by
  obtain ⟨e1, ⟨y, hy, ey⟩, ⟨z, hz, ez⟩⟩ := extents α (a.high.elem - a.low.elem)
  have h0 : ∀ k, 0 ≤ (a.high.elem - a.low.elem) k := fun k => by have := ho k; rw [Pi.sub_apply]; linarith
  have mem : ∀ y : Fin n → ℝ, (∀ k, min 0 ((a.high.elem - a.low.elem) k) ≤ y k ∧ y k ≤ max 0 ((a.high.elem - a.low.elem) k)) → a.low.elem + y ∈ boxSet a := fun y hy k => by
    have := hy k
    rw [min_eq_left (h0 k), max_eq_right (h0 k), Pi.sub_apply] at this
    rw [Pi.add_apply]
    constructor <;> linarith [this.1, this.2]
  refine ⟨fun x hx => ?_, ⟨_, mem y hy, by rw [dotProduct_add, ey]⟩, ⟨_, mem z hz, by rw [dotProduct_add, ez]⟩⟩
  have := e1 (x - a.low.elem) fun k => by
    have := hx k
    rw [min_eq_left (h0 k), max_eq_right (h0 k), Pi.sub_apply, Pi.sub_apply]
    constructor <;> linarith [this.1, this.2]
  rw [dotProduct_sub] at this
  constructor <;> linarith [this.1, this.2]

/-- The unit vector along a direction (0 for 0). -/
theorem dir_unit (α : Fin n → ℝ) : ∃ v : Fin n → ℝ, len v ≤ 1 ∧ α ⬝ᵥ v = len α := by
  by_cases h : len α = 0
  · exact ⟨0, by rw [show len (0 : Fin n → ℝ) = 0 by simp [len]]; exact zero_le_one, by rw [h, dotProduct_zero]⟩
  · refine ⟨(len α)⁻¹ • α, ?_, ?_⟩
    · rw [len_smul, abs_of_nonneg (inv_nonneg.2 (len_nonneg _)), inv_mul_cancel₀ h]
    · rw [dotProduct_smul, smul_eq_mul, ← len_sq, pow_two, inv_mul_cancel_left₀ h]

/-- Deep, close points leave the extents of the boxes along a direction overlapping by much. -/
theorem overlap (R : Matrix (Fin n) (Fin n) ℝ) (hR : Rᵀ * R = 1) (c s α : Fin n → ℝ) (a : Box n) (ho : Ordered a) {d₁ d₂ e : ℝ} {x y : Fin n → ℝ} (hd1 : 0 ≤ d₁) (hd2 : 0 ≤ d₂)
    (hx : x ∈ turnedBox c s R (-d₁)) (hy : ∀ i, a.low.elem i + d₂ ≤ y i ∧ y i ≤ a.high.elem i - d₂) (he : eucl x y ≤ e) :
    (∑ k, min 0 ((R *ᵥ α) k * s k) - (a.low.elem - c) ⬝ᵥ α) - ∑ k, max 0 (α k * (a.high.elem - a.low.elem) k) ≤ (e - (d₁ + d₂)) * len α ∧
    ∑ k, min 0 (α k * (a.high.elem - a.low.elem) k) - (∑ k, max 0 ((R *ᵥ α) k * s k) - (a.low.elem - c) ⬝ᵥ α) ≤ (e - (d₁ + d₂)) * len α := by
  obtain ⟨v, hv, ev⟩ := dir_unit α
  have mt : ∀ t : ℝ, |t| ≤ d₁ → x + t • v ∈ turnedBox c s R 0 := fun t ht k => by
    have g : |t * (R *ᵥ v) k| ≤ d₁ := by
      rw [abs_mul]
      calc |t| * |(R *ᵥ v) k| ≤ |t| * 1 := mul_le_mul_of_nonneg_left ((abs_le_len _ k).trans (by rw [len_orth hR]; exact hv)) (abs_nonneg _)
        _ ≤ d₁ := by rwa [mul_one]
    have g := _root_.abs_le.1 g
    have := hx k
    rw [show x + t • v - c = (x - c) + t • v by abel, mulVec_add, mulVec_smul, Pi.add_apply, Pi.smul_apply, smul_eq_mul]
    constructor <;> linarith [this.1, this.2, g.1, g.2]
  have ma : ∀ t : ℝ, |t| ≤ d₂ → y + t • v ∈ boxSet a := fun t ht k => by
    have g : |t * v k| ≤ d₂ := by
      rw [abs_mul]
      calc |t| * |v k| ≤ |t| * 1 := mul_le_mul_of_nonneg_left ((abs_le_len _ k).trans hv) (abs_nonneg _)
        _ ≤ d₂ := by rwa [mul_one]
    have g := _root_.abs_le.1 g
    have := hy k
    rw [Pi.add_apply, Pi.smul_apply, smul_eq_mul]
    constructor <;> linarith [this.1, this.2, g.1, g.2]
  have t1 := (turned_extents R hR c s α).1
  have t2 := (box_extents a ho α).1
  have p1 := t1 _ (mt d₁ (abs_of_nonneg hd1).le)
  have p2 := t1 _ (mt (-d₁) (by rw [abs_neg, abs_of_nonneg hd1]))
  have q1 := t2 _ (ma d₂ (abs_of_nonneg hd2).le)
  have q2 := t2 _ (ma (-d₂) (by rw [abs_neg, abs_of_nonneg hd2]))
  simp only [dotProduct_add, dotProduct_smul, smul_eq_mul, ev] at p1 p2 q1 q2
  have f : |α ⬝ᵥ x - α ⬝ᵥ y| ≤ len α * e := by
    rw [← dotProduct_sub]
    refine (abs_dot_le_len _ _).trans (mul_le_mul_of_nonneg_left ?_ (len_nonneg _))
    rw [← eucl_eq_len]; exact he
  have f := _root_.abs_le.1 f
  have c1 : (a.low.elem - c) ⬝ᵥ α = α ⬝ᵥ a.low.elem - α ⬝ᵥ c := by rw [dotProduct_comm, dotProduct_sub]
  rw [c1]
  constructor <;> linarith [p1.1, p1.2, p2.1, p2.2, q1.1, q1.2, q2.1, q2.2, f.1, f.2]

/-- Extents along a direction that are at most `W` apart: points of the boxes at most that far apart along it. -/
theorem near_points (R : Matrix (Fin n) (Fin n) ℝ) (hR : Rᵀ * R = 1) (c s α : Fin n → ℝ) (a : Box n) (ho : Ordered a) {W : ℝ} (hW : 0 ≤ W)
    (g1 : (∑ k, min 0 ((R *ᵥ α) k * s k) - (a.low.elem - c) ⬝ᵥ α) - ∑ k, max 0 (α k * (a.high.elem - a.low.elem) k) ≤ W)
    (g2 : ∑ k, min 0 (α k * (a.high.elem - a.low.elem) k) - (∑ k, max 0 ((R *ᵥ α) k * s k) - (a.low.elem - c) ⬝ᵥ α) ≤ W) :
    ∃ x ∈ boxSet a, ∃ y ∈ turnedBox c s R 0, |α ⬝ᵥ (x - y)| ≤ W := by
  obtain ⟨t1, ⟨p, hp, ep⟩, ⟨q, hq, eq⟩⟩ := turned_extents R hR c s α
  obtain ⟨-, ⟨f, hf, ef⟩, ⟨g, hg, eg⟩⟩ := box_extents a ho α
  have c1 : (a.low.elem - c) ⬝ᵥ α = α ⬝ᵥ a.low.elem - α ⬝ᵥ c := by rw [dotProduct_comm, dotProduct_sub]
  rw [c1] at g1 g2
  have lin : ∀ x y (t : ℝ), α ⬝ᵥ (x + t • (y - x)) = α ⬝ᵥ x + t * (α ⬝ᵥ y - α ⬝ᵥ x) := fun x y t => by
    rw [dotProduct_add, dotProduct_smul, dotProduct_sub, smul_eq_mul]
  have o := (t1 p hp).2
  obtain ⟨x, hx, x1, x2⟩ := mid (boxSet_mid a) (fun x => α ⬝ᵥ x) lin (l := α ⬝ᵥ p - W) (h := α ⬝ᵥ q + W) hf hg (by show α ⬝ᵥ f ≤ _; linarith) (by show _ ≤ α ⬝ᵥ g; linarith) (by linarith)
  obtain ⟨y, hy, y1, y2⟩ := mid (turnedBox_mid c s R 0) (fun x => α ⬝ᵥ x) lin (l := α ⬝ᵥ x - W) (h := α ⬝ᵥ x + W) hp hq (by show α ⬝ᵥ p ≤ _; linarith) (by show _ ≤ α ⬝ᵥ q; linarith) (by linarith)
  refine ⟨x, hx, y, hy, ?_⟩
  rw [dotProduct_sub, _root_.abs_le]
  constructor <;> linarith

/-- Moving a point along a direction so that it gets level with another. -/
theorem level {α x y : Fin n → ℝ} {W lam : ℝ} (hl : 0 < lam) (hα : lam ≤ len α) (h : |α ⬝ᵥ (x - y)| ≤ W) :
    ∃ z, (∀ k, |z k - x k| ≤ W / lam) ∧ α ⬝ᵥ (z - y) = 0 := by
  have hp : 0 < len α := hl.trans_le hα
  refine ⟨x - (α ⬝ᵥ (x - y) / len α ^ 2) • α, fun k => ?_, ?_⟩
  · rw [Pi.sub_apply, Pi.smul_apply, smul_eq_mul, sub_sub_cancel_left, abs_neg, abs_mul, abs_div, abs_of_nonneg (sq_nonneg (len α))]
    have hW := (abs_nonneg _).trans h
    calc |α ⬝ᵥ (x - y)| / len α ^ 2 * |α k| ≤ W / len α ^ 2 * len α :=
          mul_le_mul (div_le_div_of_nonneg_right h (sq_nonneg _)) (abs_le_len _ k) (abs_nonneg _) (div_nonneg hW (sq_nonneg _))
      _ = W / len α := by field_simp
      _ ≤ W / lam := div_le_div_of_nonneg_left hW hl hα
  · rw [show x - (α ⬝ᵥ (x - y) / len α ^ 2) • α - y = (x - y) - (α ⬝ᵥ (x - y) / len α ^ 2) • α by abel, dotProduct_sub, dotProduct_smul, smul_eq_mul, ← len_sq,
      div_mul_cancel₀ _ (pow_ne_zero 2 hp.ne'), sub_self]

theorem satLoop_of (r : Rounding 53) {b : RBox 3} {a : Box 3} {proper : Bool} : ∀ ps : List (Fin 3 × Fin 3), (∀ p ∈ ps, satStep r b a proper p.1 p.2 ≠ some false) → satLoop r b a proper ps = true
  | [], _ => rfl
  | (i, j) :: ps, h => by
    have h1 := h (i, j) (List.mem_cons_self ..)
    rw [satLoop]
    split
    · rfl
    · rename_i e; exact absurd e h1
    · exact satLoop_of r ps fun p hp => h p (List.mem_cons_of_mem _ hp)

theorem of_satLoop (r : Rounding 53) {b : RBox 3} {a : Box 3} {proper : Bool} : ∀ ps : List (Fin 3 × Fin 3), satLoop r b a proper ps = true →
    (∃ p ∈ ps, satStep r b a proper p.1 p.2 = none) ∨ ∀ p ∈ ps, satStep r b a proper p.1 p.2 = some true
  | [], _ => Or.inr (by simp)
  | (i, j) :: ps, h => by
    rw [satLoop] at h
    split at h
    · rename_i e; exact Or.inl ⟨(i, j), List.mem_cons_self .., e⟩
    · cases h
    · rename_i e
      rcases of_satLoop r ps h with ⟨p, hp, ep⟩ | h'
      · exact Or.inl ⟨p, List.mem_cons_of_mem _ hp, ep⟩
      · refine Or.inr fun p hp => ?_
        rcases List.mem_cons.1 hp with rfl | hp
        · exact e
        · exact h' p hp

theorem mem_satPairs (i j : Fin 3) : (i, j) ∈ satPairs := by revert i j; decide

end Fl
end WFMath
