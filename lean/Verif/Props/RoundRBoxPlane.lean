/- Property theorems C135, continued: rotated boxes meeting boxes of the plane, computed in doubles. -/
import Verif.Props.RoundRBoxBox

namespace WFMath
open Spec Matrix Rounding
variable {n : Nat}

namespace Fl

/-- Between two points of a set a coordinate takes all values in between. -/
theorem mid {S : Set (Fin n → ℝ)} (hS : ∀ x ∈ S, ∀ y ∈ S, ∀ t : ℝ, 0 ≤ t → t ≤ 1 → x + t • (y - x) ∈ S) (f : (Fin n → ℝ) → ℝ)
    (hf : ∀ x y (t : ℝ), f (x + t • (y - x)) = f x + t * (f y - f x)) {xa xb : Fin n → ℝ} {l h : ℝ} (ha : xa ∈ S) (hb : xb ∈ S) (h1 : f xa ≤ h) (h2 : l ≤ f xb) (hl : l ≤ h) :
    ∃ x ∈ S, l ≤ f x ∧ f x ≤ h := by
  by_cases g1 : l ≤ f xa
  · exact ⟨xa, ha, g1, h1⟩
  by_cases g2 : f xb ≤ h
  · exact ⟨xb, hb, h2, g2⟩
  push Not at g1 g2
  have hp : 0 < f xb - f xa := by linarith
  have t0 : 0 ≤ (l - f xa) / (f xb - f xa) := div_nonneg (by linarith) hp.le
  have t1 : (l - f xa) / (f xb - f xa) ≤ 1 := by rw [div_le_one hp]; linarith
  refine ⟨_, hS xa ha xb hb _ t0 t1, ?_⟩
  rw [hf, div_mul_cancel₀ _ hp.ne']
  constructor <;> linarith

theorem between_mem {l h x y t : ℝ} (t0 : 0 ≤ t) (t1 : t ≤ 1) (hx : l ≤ x ∧ x ≤ h) (hy : l ≤ y ∧ y ≤ h) : l ≤ x + t * (y - x) ∧ x + t * (y - x) ≤ h := by
  constructor
  · nlinarith [hx.1, hy.1]
  · nlinarith [hx.2, hy.2]

theorem boxSet_mid (a : Box n) : ∀ x ∈ boxSet a, ∀ y ∈ boxSet a, ∀ t : ℝ, 0 ≤ t → t ≤ 1 → x + t • (y - x) ∈ boxSet a := fun _ hx _ hy _ t0 t1 i => between_mem t0 t1 (hx i) (hy i)

theorem turned_line (R : Matrix (Fin n) (Fin n) ℝ) (c x y : Fin n → ℝ) (t : ℝ) (k : Fin n) :
    (R *ᵥ (x + t • (y - x) - c)) k = (R *ᵥ (x - c)) k + t * ((R *ᵥ (y - c)) k - (R *ᵥ (x - c)) k) := by
  have : x + t • (y - x) - c = (x - c) + t • ((y - c) - (x - c)) := by
    rw [sub_sub_sub_cancel_right]; abel
  rw [this, mulVec_add, mulVec_smul, mulVec_sub R (y - c) (x - c)]
  rfl

theorem turnedBox_mid (c s : Fin n → ℝ) (R : Matrix (Fin n) (Fin n) ℝ) (d : ℝ) :
    ∀ x ∈ turnedBox c s R d, ∀ y ∈ turnedBox c s R d, ∀ t : ℝ, 0 ≤ t → t ≤ 1 → x + t • (y - x) ∈ turnedBox c s R d := fun x hx y hy t t0 t1 k => by
  rw [turned_line]; exact between_mem t0 t1 (hx k) (hy k)

theorem entry_le (R : Matrix (Fin n) (Fin n) ℝ) (hR : Rᵀ * R = 1) (i j : Fin n) : |R i j| ≤ 1 := by
  have h := (abs_le_len (R *ᵥ Pi.single j 1) i)
  rwa [len_orth hR, len_single, mulVec_single_one] at h

/-- A point deep in a box can be moved along any direction `row k` of the rotation. -/
theorem shrunk_box (R : Matrix (Fin n) (Fin n) ℝ) (hR : Rᵀ * R = 1) (c : Fin n → ℝ) (a : Box n) {d : ℝ} (hd : 0 ≤ d) {x : Fin n → ℝ}
    (hx : ∀ i, a.low.elem i + d ≤ x i ∧ x i ≤ a.high.elem i - d) (k : Fin n) :
    (∃ y ∈ boxSet a, (R *ᵥ (y - c)) k = (R *ᵥ (x - c)) k - d) ∧ ∃ y ∈ boxSet a, (R *ᵥ (y - c)) k = (R *ᵥ (x - c)) k + d := by
  have hR' : R * Rᵀ = 1 := mul_eq_one_comm.1 hR
  have key : ∀ t : ℝ, |t| ≤ d → ∃ y ∈ boxSet a, (R *ᵥ (y - c)) k = (R *ᵥ (x - c)) k + t := fun t ht => by
    refine ⟨x + t • (Rᵀ *ᵥ Pi.single k 1), fun i => ?_, ?_⟩
    · have h1 : (Rᵀ *ᵥ Pi.single k 1) i = R k i := by rw [mulVec_single_one]; rfl
      have h2 : |t * R k i| ≤ d := by
        rw [abs_mul]
        calc |t| * |R k i| ≤ |t| * 1 := mul_le_mul_of_nonneg_left (entry_le R hR k i) (abs_nonneg _)
          _ ≤ d := by rwa [mul_one]
      have h3 := _root_.abs_le.1 h2
      have := hx i
      rw [Pi.add_apply, Pi.smul_apply, smul_eq_mul, h1]
      constructor <;> linarith
    · rw [show x + t • (Rᵀ *ᵥ Pi.single k 1) - c = (x - c) + t • (Rᵀ *ᵥ Pi.single k 1) by abel, mulVec_add, mulVec_smul, mulVec_mulVec, hR', one_mulVec]
      simp
  obtain ⟨y, hy, e⟩ := key (-d) (by rw [abs_neg, abs_of_nonneg hd])
  exact ⟨⟨y, hy, by rw [e]; ring⟩, key d (by rw [abs_of_nonneg hd])⟩

/-- A point deep in a turned box can be moved along any axis. -/
theorem shrunk_turned (R : Matrix (Fin n) (Fin n) ℝ) (hR : Rᵀ * R = 1) (c s : Fin n → ℝ) {d : ℝ} (hd : 0 ≤ d) {x : Fin n → ℝ} (hx : x ∈ turnedBox c s R (-d)) (j : Fin n) :
    (∃ y ∈ turnedBox c s R 0, y j = x j - d) ∧ ∃ y ∈ turnedBox c s R 0, y j = x j + d := by
  have key : ∀ t : ℝ, |t| ≤ d → ∃ y ∈ turnedBox c s R 0, y j = x j + t := fun t ht => by
    refine ⟨x + t • Pi.single j 1, fun k => ?_, by simp⟩
    have h1 : (R *ᵥ (x + t • Pi.single j 1 - c)) k = (R *ᵥ (x - c)) k + t * R k j := by
      rw [show x + t • Pi.single j 1 - c = (x - c) + t • (Pi.single j 1 : Fin n → ℝ) by abel, mulVec_add, mulVec_smul, mulVec_single_one]; rfl
    have h2 : |t * R k j| ≤ d := by
      rw [abs_mul]
      calc |t| * |R k j| ≤ |t| * 1 := mul_le_mul_of_nonneg_left (entry_le R hR k j) (abs_nonneg _)
        _ ≤ d := by rwa [mul_one]
    have h3 := _root_.abs_le.1 h2
    have := hx k
    rw [h1]
    constructor <;> linarith
  obtain ⟨y, hy, e⟩ := key (-d) (by rw [abs_neg, abs_of_nonneg hd])
  exact ⟨⟨y, hy, by rw [e]; ring⟩, key d (by rw [abs_of_nonneg hd])⟩

theorem interBB_false_of (r : Rounding 53) {a b : Box n} (h : ∀ i, a.low.elem i ≤ b.high.elem i + epsilon ∧ b.low.elem i ≤ a.high.elem i + epsilon) : interBB r a b false = true := by
  unfold interBB
  simp only [List.all_eq_true, List.mem_finRange, true_implies, not_or_bool, less, greater, Bool.false_eq_true, if_false, decide_eq_true_eq, gt_iff_lt, not_lt]
  exact fun i => ⟨r.le_fl isFl_epsilon (by linarith [(h i).1]), r.le_fl isFl_epsilon (by linarith [(h i).2])⟩

theorem of_interBB_false (r : Rounding 53) {a b : Box n} (h : interBB r a b false = true) (i : Fin n) :
    a.low.elem i ≤ b.high.elem i + epsilon * (1 + 2 ^ (-52 : ℤ)) ∧ b.low.elem i ≤ a.high.elem i + epsilon * (1 + 2 ^ (-52 : ℤ)) := by
  unfold interBB at h
  simp only [List.all_eq_true, List.mem_finRange, true_implies, not_or_bool] at h
  have h1 := not_greater (h i).1
  have h2 := not_less (h i).2
  constructor <;> linarith

theorem interBB_true_iff (r : Rounding 53) {a b : Box n} : interBB r a b true = true ↔ ∀ i, a.low.elem i < b.high.elem i ∧ b.low.elem i < a.high.elem i := by
  unfold interBB
  simp only [List.all_eq_true, List.mem_finRange, true_implies, not_or_bool, less_proper, greater_proper, less_true, greater_true, not_le]

/-- The two tests of bounding boxes, with the errors made in each, and what they say of the exact boxes. -/
theorem tests_of_points (r : Rounding 53) (b : RBox n) (R : Matrix (Fin n) (Fin n) ℝ) (E : ℝ) (hn : n < 2 ^ 52) (hR : Rᵀ * R = 1)
    (h0 : 2 * n * (n + 1) * 2 ^ (-52 : ℤ) ≤ E) (h1 : E ≤ 1 / 4) (hm : Stands b.orient.elem R (E - 2 * n * (n + 1) * 2 ^ (-52 : ℤ))) (a : Box n) (ho : Ordered a) (M : ℝ)
    (hM : M = E * len b.size.elem + (E + 2 ^ (-51 : ℤ)) * eucl a.low.elem a.high.elem + (3 * E + 2 ^ (-51 : ℤ)) * eucl a.low.elem b.corner.elem +
      (n + 1) * 2 ^ (-50 : ℤ) * len b.corner.elem + 2 ^ (-53 : ℤ) * len (b.corner.elem + b.size.elem)) :
    (∀ x ∈ turnedBox b.corner.elem b.size.elem R 0, ∀ i, (rbBox r b).low.elem i - M ≤ x i ∧ x i ≤ (rbBox r b).high.elem i + M) ∧
    (∀ i, (∃ x ∈ turnedBox b.corner.elem b.size.elem R 0, x i ≤ (rbBox r b).low.elem i + M) ∧ ∃ x ∈ turnedBox b.corner.elem b.size.elem R 0, (rbBox r b).high.elem i - M ≤ x i) ∧
    (∀ x ∈ boxSet a, ∀ i, (rbBox r (rbSeen r b a)).low.elem i - (b.corner.elem i + max 0 (b.size.elem i)) ≤
        (R *ᵥ (x - b.corner.elem)) i - max 0 (b.size.elem i) + M - |(rbFlat r b).high.elem i - (b.corner.elem i + max 0 (b.size.elem i))| ∧
      (R *ᵥ (x - b.corner.elem)) i - min 0 (b.size.elem i) - M + |(rbFlat r b).low.elem i - (b.corner.elem i + min 0 (b.size.elem i))| ≤
        (rbBox r (rbSeen r b a)).high.elem i - (b.corner.elem i + min 0 (b.size.elem i))) ∧
    (∀ i, (∃ x ∈ boxSet a, (R *ᵥ (x - b.corner.elem)) i ≤ (rbBox r (rbSeen r b a)).low.elem i - b.corner.elem i + M -
        |(rbFlat r b).high.elem i - (b.corner.elem i + max 0 (b.size.elem i))|) ∧
      ∃ x ∈ boxSet a, (rbBox r (rbSeen r b a)).high.elem i - b.corner.elem i - M + |(rbFlat r b).low.elem i - (b.corner.elem i + min 0 (b.size.elem i))| ≤
        (R *ᵥ (x - b.corner.elem)) i) := by
  obtain ⟨c1, c2, -⟩ := C135_bounding_box r b R E hn hR h0 h1 hm
  have err := seen_err r b a R E hn hR h0 h1 hm _ rfl
  have face := flat_face r b
  have exa := seen_exact R b.corner.elem a ho
  have hE : 0 ≤ E := le_trans (by positivity) h0
  have hs := mul_nonneg hE (len_nonneg b.size.elem)
  have hc : (n : ℝ) * 2 ^ (-52 : ℤ) * len b.corner.elem + (n + 1) * 2 ^ (-51 : ℤ) * len b.corner.elem ≤ (n + 1) * 2 ^ (-50 : ℤ) * len b.corner.elem := by
    rw [← add_mul]
    refine mul_le_mul_of_nonneg_right ?_ (len_nonneg _)
    rw [show (2 : ℝ) ^ (-50 : ℤ) = 4 * 2 ^ (-52 : ℤ) by norm_num, show (2 : ℝ) ^ (-51 : ℤ) = 2 * 2 ^ (-52 : ℤ) by norm_num]
    have : (0 : ℝ) ≤ 2 ^ (-52 : ℤ) := by positivity
    have hn0 : (0 : ℝ) ≤ n := Nat.cast_nonneg _
    nlinarith [mul_nonneg hn0 this]
  have hc1 : (0 : ℝ) ≤ (n + 1) * 2 ^ (-51 : ℤ) * len b.corner.elem := mul_nonneg (by positivity) (len_nonneg _)
  have hc2 : (0 : ℝ) ≤ n * 2 ^ (-52 : ℤ) * len b.corner.elem := mul_nonneg (by positivity) (len_nonneg _)
  have q1 : 0 ≤ (E + 2 ^ (-51 : ℤ)) * eucl a.low.elem a.high.elem := mul_nonneg (by positivity) (eucl_nonneg _ _)
  have q2 : 0 ≤ (3 * E + 2 ^ (-51 : ℤ)) * eucl a.low.elem b.corner.elem := mul_nonneg (by positivity) (eucl_nonneg _ _)
  have q3 : 0 ≤ (2 : ℝ) ^ (-53 : ℤ) * len (b.corner.elem + b.size.elem) := mul_nonneg (by positivity) (len_nonneg _)
  have hi : ∀ i, E * len b.size.elem + n * 2 ^ (-52 : ℤ) * |b.corner.elem i| ≤ M := fun i => by
    have := mul_le_mul_of_nonneg_left (abs_le_len b.corner.elem i) (show (0 : ℝ) ≤ n * 2 ^ (-52 : ℤ) by positivity)
    rw [hM]; linarith
  have hj : (E + 2 ^ (-51 : ℤ)) * eucl a.low.elem a.high.elem + (3 * E + 2 ^ (-51 : ℤ)) * eucl a.low.elem b.corner.elem + (n + 1) * 2 ^ (-51 : ℤ) * len b.corner.elem +
      2 ^ (-53 : ℤ) * len (b.corner.elem + b.size.elem) ≤ M := by rw [hM]; linarith
  generalize (E + 2 ^ (-51 : ℤ)) * eucl a.low.elem a.high.elem + (3 * E + 2 ^ (-51 : ℤ)) * eucl a.low.elem b.corner.elem + (n + 1) * 2 ^ (-51 : ℤ) * len b.corner.elem = K at *
  generalize (2 : ℝ) ^ (-53 : ℤ) * len (b.corner.elem + b.size.elem) = k at *
  refine ⟨fun x hx i => ?_, fun i => ?_, fun x hx i => ?_, fun i => ?_⟩
  · have := c1 x hx i
    have := hi i
    constructor <;> linarith
  · obtain ⟨⟨x, hx, ex⟩, ⟨y, hy, ey⟩⟩ := c2 i
    have gx := _root_.abs_le.1 (ex.trans (hi i))
    have gy := _root_.abs_le.1 (ey.trans (hi i))
    exact ⟨⟨x, hx, by linarith⟩, ⟨y, hy, by linarith⟩⟩
  · have g := (exa i).1 x hx
    have g1 := _root_.abs_le.1 (err i).1
    have g2 := _root_.abs_le.1 (err i).2
    have f1 := (face i).1
    have f2 := (face i).2
    rw [Pi.add_apply b.corner.elem (R *ᵥ (x - b.corner.elem))] at g
    constructor <;> linarith
  · obtain ⟨-, ⟨x, hx, ex⟩, ⟨y, hy, ey⟩⟩ := exa i
    have g1 := _root_.abs_le.1 (err i).1
    have g2 := _root_.abs_le.1 (err i).2
    have f1 := (face i).1
    have f2 := (face i).2
    rw [← ex] at g1
    rw [← ey] at g2
    simp only [Pi.add_apply] at g1 g2
    exact ⟨⟨x, hx, by linarith⟩, ⟨y, hy, by linarith⟩⟩

end Fl

/-- C135, rotated box meeting a box of the plane: computed in doubles, compared with the exact boxes. -/
theorem C135_plane (r : Rounding 53) (b : RBox 2) (R : Matrix (Fin 2) (Fin 2) ℝ) (E : ℝ) (hR : Rᵀ * R = 1)
    (h0 : 12 * 2 ^ (-52 : ℤ) ≤ E) (h1 : E ≤ 1 / 4) (hm : Stands b.orient.elem R (E - 12 * 2 ^ (-52 : ℤ))) (a : Box 2) (ho : Ordered a) (M : ℝ)
    (hM : M = E * len b.size.elem + (E + 2 ^ (-51 : ℤ)) * eucl a.low.elem a.high.elem + (3 * E + 2 ^ (-51 : ℤ)) * eucl a.low.elem b.corner.elem +
      3 * 2 ^ (-50 : ℤ) * len b.corner.elem + 2 ^ (-53 : ℤ) * len (b.corner.elem + b.size.elem)) :
    (∀ d₁ d₂ e x y, 0 ≤ d₁ → 0 ≤ d₂ → x ∈ turnedBox b.corner.elem b.size.elem R (-d₁) → (∀ i, a.low.elem i + d₂ ≤ y i ∧ y i ≤ a.high.elem i - d₂) → eucl x y ≤ e →
      (M + e ≤ d₁ + d₂ + epsilon → Fl.interRB2 r b a false = true) ∧ (M + e < d₁ + d₂ → Fl.interRB2 r b a true = true)) ∧
    (Fl.interRB2 r b a false = true → ∃ x ∈ turnedBox b.corner.elem b.size.elem R (epsilon * (1 + 2 ^ (-52 : ℤ)) + M),
      ∀ i, a.low.elem i - (epsilon * (1 + 2 ^ (-52 : ℤ)) + M) ≤ x i ∧ x i ≤ a.high.elem i + (epsilon * (1 + 2 ^ (-52 : ℤ)) + M)) ∧
    (Fl.interRB2 r b a true = true → ∃ x ∈ turnedBox b.corner.elem b.size.elem R M, ∀ i, a.low.elem i - M ≤ x i ∧ x i ≤ a.high.elem i + M) := by
  obtain ⟨t1, t2, t3, t4⟩ := Fl.tests_of_points r b R E (by norm_num) hR (by refine le_trans (le_of_eq ?_) h0; norm_num) h1
    (by convert hm using 2; norm_num) a ho M (by rw [hM]; norm_num)
  have hE : 0 ≤ E := le_trans (by positivity) h0
  have hM0 : 0 ≤ M := by
    have := mul_nonneg hE (len_nonneg b.size.elem)
    have q1 : 0 ≤ (E + 2 ^ (-51 : ℤ)) * eucl a.low.elem a.high.elem := mul_nonneg (by positivity) (eucl_nonneg _ _)
    have q2 : 0 ≤ (3 * E + 2 ^ (-51 : ℤ)) * eucl a.low.elem b.corner.elem := mul_nonneg (by positivity) (eucl_nonneg _ _)
    have q3 : 0 ≤ (2 : ℝ) ^ (-53 : ℤ) * len (b.corner.elem + b.size.elem) := mul_nonneg (by positivity) (len_nonneg _)
    have q4 : 0 ≤ 3 * (2 : ℝ) ^ (-50 : ℤ) * len b.corner.elem := mul_nonneg (by positivity) (len_nonneg _)
    rw [hM]; linarith
  clear hM
  have split : ∀ proper, Fl.interRB2 r b a proper = true ↔
      Fl.interBB r (Fl.rbBox r b) a proper = true ∧ Fl.interBB r (Fl.rbBox r (Fl.rbSeen r b a)) (Fl.rbFlat r b) proper = true := fun proper => by
    unfold Fl.interRB2
    by_cases g : Fl.interBB r (Fl.rbBox r b) a proper = true <;> simp [g]
  -- from the tests, with any slack, to a common point of the enlarged boxes
  have sound : ∀ w, 0 ≤ w →
      (∀ i, (Fl.rbBox r b).low.elem i ≤ a.high.elem i + w ∧ a.low.elem i ≤ (Fl.rbBox r b).high.elem i + w) →
      (∀ i, (Fl.rbBox r (Fl.rbSeen r b a)).low.elem i ≤ (Fl.rbFlat r b).high.elem i + w ∧ (Fl.rbFlat r b).low.elem i ≤ (Fl.rbBox r (Fl.rbSeen r b a)).high.elem i + w) →
      ∃ x ∈ turnedBox b.corner.elem b.size.elem R (w + M), ∀ i, a.low.elem i - (w + M) ≤ x i ∧ x i ≤ a.high.elem i + (w + M) := by
    intro w hw g1 g2
    obtain ⟨x, hx1, hx2⟩ := sat2 (r := ⟨b.corner, b.size, ⟨R, false, true, 0⟩⟩) (I := fun j => Set.Icc (a.low.elem j - (w + M)) (a.high.elem j + (w + M)))
      (J := fun k => Set.Icc (b.corner.elem k + (min 0 (b.size.elem k) - (w + M))) (b.corner.elem k + (max 0 (b.size.elem k) + (w + M))))
      (fun j => convex_Icc _ _) (fun k => convex_Icc _ _)
      (fun k => by
        obtain ⟨⟨xa, ha, ea⟩, ⟨xb, hb, eb⟩⟩ := t4 k
        have f1 := le_abs_self ((Fl.rbFlat r b).high.elem k - (b.corner.elem k + max 0 (b.size.elem k)))
        have f2 := neg_abs_le ((Fl.rbFlat r b).low.elem k - (b.corner.elem k + min 0 (b.size.elem k)))
        have := g2 k
        obtain ⟨x, hx, l1, l2⟩ := Fl.mid (Fl.boxSet_mid a) (fun x => (R *ᵥ (x - b.corner.elem)) k) (fun x y t => Fl.turned_line R _ x y t k) (l := min 0 (b.size.elem k) - (w + M))
          (h := max 0 (b.size.elem k) + (w + M)) ha hb
          (by show (R *ᵥ (xa - b.corner.elem)) k ≤ _; linarith) (by show _ ≤ (R *ᵥ (xb - b.corner.elem)) k; linarith)
          (by have := min_le_left 0 (b.size.elem k); have := le_max_left 0 (b.size.elem k); linarith)
        refine ⟨x, fun j => ⟨?_, ?_⟩, ⟨add_le_add_right l1 _, add_le_add_right l2 _⟩⟩
        · have := (hx j).1; linarith
        · have := (hx j).2; linarith)
      (fun j => by
        obtain ⟨⟨xa, ha, ea⟩, ⟨xb, hb, eb⟩⟩ := t2 j
        have := g1 j
        have hoj := ho j
        obtain ⟨x, hx, l1, l2⟩ := Fl.mid (Fl.turnedBox_mid _ _ R 0) (fun x => x j) (fun x y t => rfl) (l := a.low.elem j - (w + M)) (h := a.high.elem j + (w + M)) ha hb
          (by show xa j ≤ _; linarith) (by show _ ≤ xb j; linarith) (by linarith)
        refine ⟨x, fun k => ?_, ⟨l1, l2⟩⟩
        have := hx k
        exact ⟨add_le_add_right (by linarith) _, add_le_add_right (by linarith) _⟩)
    exact ⟨x, fun k => ⟨le_of_add_le_add_left (hx2 k).1, le_of_add_le_add_left (hx2 k).2⟩, fun j => hx1 j⟩
  -- the values compared, for two close points deep in the boxes
  have complete : ∀ d₁ d₂ e x y, 0 ≤ d₁ → 0 ≤ d₂ → x ∈ turnedBox b.corner.elem b.size.elem R (-d₁) → (∀ i, a.low.elem i + d₂ ≤ y i ∧ y i ≤ a.high.elem i - d₂) → eucl x y ≤ e →
      (∀ i, (Fl.rbBox r b).low.elem i ≤ a.high.elem i + (M + e - (d₁ + d₂)) ∧ a.low.elem i ≤ (Fl.rbBox r b).high.elem i + (M + e - (d₁ + d₂))) ∧
      ∀ i, (Fl.rbBox r (Fl.rbSeen r b a)).low.elem i ≤ (Fl.rbFlat r b).high.elem i + (M + e - (d₁ + d₂)) ∧
        (Fl.rbFlat r b).low.elem i ≤ (Fl.rbBox r (Fl.rbSeen r b a)).high.elem i + (M + e - (d₁ + d₂)) := by
    intro d₁ d₂ e x y hd1 hd2 hx hy he
    rw [eucl_comm, eucl_eq_len] at he
    refine ⟨fun i => ?_, fun i => ?_⟩
    · obtain ⟨⟨p, hp, ep⟩, ⟨q, hq, eq⟩⟩ := Fl.shrunk_turned R hR _ _ hd1 hx i
      have := t1 p hp i
      have := t1 q hq i
      have := hy i
      have := _root_.abs_le.1 ((abs_le_len (y - x) i).trans he)
      rw [Pi.sub_apply] at this
      constructor <;> linarith
    · obtain ⟨⟨p, hp, ep⟩, ⟨q, hq, eq⟩⟩ := Fl.shrunk_box R hR b.corner.elem a hd2 hy i
      have := t3 p hp i
      have := t3 q hq i
      have := hx i
      have f1 := neg_abs_le ((Fl.rbFlat r b).high.elem i - (b.corner.elem i + max 0 (b.size.elem i)))
      have f2 := le_abs_self ((Fl.rbFlat r b).low.elem i - (b.corner.elem i + min 0 (b.size.elem i)))
      have g0 : len (R *ᵥ (y - b.corner.elem) - R *ᵥ (x - b.corner.elem)) ≤ e := by rw [← mulVec_sub, sub_sub_sub_cancel_right, Fl.len_orth hR]; exact he
      have g := (abs_le_len _ i).trans g0
      have := _root_.abs_le.1 g
      rw [Pi.sub_apply] at this
      constructor <;> linarith
  refine ⟨fun d₁ d₂ e x y hd1 hd2 hx hy he => ⟨fun h => ?_, fun h => ?_⟩, fun h => ?_, fun h => ?_⟩
  · obtain ⟨g1, g2⟩ := complete d₁ d₂ e x y hd1 hd2 hx hy he
    refine (split false).2 ⟨Fl.interBB_false_of r fun i => ?_, Fl.interBB_false_of r fun i => ?_⟩
    · have := g1 i; constructor <;> linarith
    · have := g2 i; constructor <;> linarith
  · obtain ⟨g1, g2⟩ := complete d₁ d₂ e x y hd1 hd2 hx hy he
    refine (split true).2 ⟨(Fl.interBB_true_iff r).2 fun i => ?_, (Fl.interBB_true_iff r).2 fun i => ?_⟩
    · have := g1 i; constructor <;> linarith
    · have := g2 i; constructor <;> linarith
  · obtain ⟨g1, g2⟩ := (split false).1 h
    exact sound _ (mul_nonneg epsilon_pos.le (by positivity)) (Fl.of_interBB_false r g1) (Fl.of_interBB_false r g2)
  · obtain ⟨g1, g2⟩ := (split true).1 h
    have g3 := (Fl.interBB_true_iff r).1 g1
    have g4 := (Fl.interBB_true_iff r).1 g2
    have := sound 0 le_rfl (fun i => by have := g3 i; constructor <;> linarith) (fun i => by have := g4 i; constructor <;> linarith)
    rwa [zero_add] at this

end WFMath
