/- Moving and turning polygons in space, with rounding. -/
import Verif.Spec.PolyPlane
import Verif.Model.RoundedPoly3Move
import Verif.Lemmas.RoundPoly3
import Verif.Lemmas.RoundShapeMove

namespace WFMath
open Spec Matrix Rounding
variable {n : Nat}

theorem Spec.reach_nonneg (p : Pt 2) : 0 ≤ reach p := by unfold reach; positivity

theorem len_of_near {a : Fin n → ℝ} {η : ℝ} (h : |a ⬝ᵥ a - 1| ≤ η) (hη : η ≤ 1 / 10) : len a ≤ 21 / 20 := by
  rw [← len_sq] at h
  have := (_root_.abs_le.1 h).2
  have := len_nonneg a
  nlinarith

namespace Fl

/-- What can be read. -/
theorem convert_some (r : Rounding 53) {o : Orient n} {q : Pt 2} {c : Pt n} (h : convert r o q = some c) :
    o.origin.valid = true ∧ (o.ax0.valid = true ∨ q.elem 0 = 0) ∧ (o.ax1.valid = true ∨ q.elem 1 = 0) := by
  unfold convert at h
  split_ifs at h with h1 h2 h3 <;>
  · refine ⟨by simpa using h1, ?_, ?_⟩
    · by_contra hc; push Not at hc; exact h2 ⟨by simpa using hc.1, hc.2⟩
    · by_contra hc; push Not at hc; exact h3 ⟨by simpa using hc.1, hc.2⟩

/-- One step of `convert`. -/
theorem put_spec' (r : Rounding 53) (o : Pt n) (a : Vec n) (ha : len a.elem ≤ 11 / 10) (x : ℝ) :
    len ((addVec r o (scale r a x)).elem - (o.elem + x • a.elem)) ≤ u 53 * len o.elem + 3 * u 53 * |x| := by
  have hu0 : 0 < u 53 := u_pos
  have hu : u 53 ≤ 1 / 1000000 := by rw [u53]; norm_num
  have hx := abs_nonneg x
  have h1 := len_round r (x • a.elem)
  have e1 : (fun i => r ((x • a.elem) i)) = (scale r a x).elem := by
    funext i; show r (x * a.elem i) = r (a.elem i * x); rw [mul_comm]
  rw [e1, ← u53, len_smul'] at h1
  have h2 := len_round r (o.elem + (scale r a x).elem)
  have e2 : (fun i => r ((o.elem + (scale r a x).elem) i)) = (addVec r o (scale r a x)).elem := rfl
  rw [e2, ← u53] at h2
  have hla := mul_le_mul_of_nonneg_left ha hx
  have h3 := len_add_le o.elem (scale r a x).elem
  have h4 := len_triangle (scale r a x).elem (x • a.elem) 0
  rw [sub_zero, sub_zero, len_smul'] at h4
  have h5 := len_triangle (addVec r o (scale r a x)).elem (o.elem + (scale r a x).elem) (o.elem + x • a.elem)
  rw [show o.elem + (scale r a x).elem - (o.elem + x • a.elem) = (scale r a x).elem - x • a.elem by abel] at h5
  have hux := mul_nonneg hu0.le hx
  have h7 := mul_le_mul_of_nonneg_left hla hu0.le
  have h6 : len (scale r a x).elem ≤ 1.11 * |x| := by
    have := mul_le_mul_of_nonneg_right hu hx
    nlinarith
  have h8 := mul_le_mul_of_nonneg_left (h3.trans (add_le_add_right h6 _)) hu0.le
  nlinarith

/-- Reading a corner: the computed point is near the exact one. -/
theorem convert_near (r : Rounding 53) {o : Orient n} (a0 : o.ax0.valid = true → len o.ax0.elem ≤ 11 / 10)
    (a1 : o.ax1.valid = true → len o.ax1.elem ≤ 11 / 10) {p : Pt 2} (h0 : o.origin.valid = true)
    (hx : o.ax0.valid = true ∨ p.elem 0 = 0) (hy : o.ax1.valid = true ∨ p.elem 1 = 0) :
    ∃ c, convert r o p = some c ∧ c.valid = p.valid ∧
      len (c.elem - o.at (p.elem 0) (p.elem 1)) ≤ 3 * u 53 * len o.origin.elem + 5 * u 53 * reach p := by
  have hu0 : 0 < u 53 := u_pos
  have hu : u 53 ≤ 1 / 1000000 := by rw [u53]; norm_num
  unfold convert
  rw [if_neg (by simp [h0]), if_neg (by rintro ⟨h, h'⟩; rcases hx with h2 | h2 <;> simp_all), if_neg (by rintro ⟨h, h'⟩; rcases hy with h2 | h2 <;> simp_all)]
  refine ⟨_, rfl, rfl, ?_⟩
  unfold reach
  have hO := len_nonneg o.origin.elem
  have hX := abs_nonneg (p.elem 0)
  have hY := abs_nonneg (p.elem 1)
  obtain ⟨out0, ho0⟩ : ∃ q, q = (if o.ax0.valid then addVec r o.origin (scale r o.ax0 (p.elem 0)) else o.origin) := ⟨_, rfl⟩
  have k1 : len (out0.elem - (o.origin.elem + p.elem 0 • o.ax0.elem)) ≤ u 53 * len o.origin.elem + 3 * u 53 * |p.elem 0| := by
    rw [ho0]
    by_cases h : o.ax0.valid = true
    · rw [if_pos h]; exact put_spec' r _ _ (a0 h) _
    · rw [if_neg h, hx.resolve_left h, zero_smul, add_zero, sub_self, len_zero]; positivity
  have k2 : len out0.elem ≤ (1 + u 53) * len o.origin.elem + 1.2 * |p.elem 0| := by
    have t1 := len_triangle out0.elem (o.origin.elem + p.elem 0 • o.ax0.elem) 0
    have t2 := len_add_le o.origin.elem (p.elem 0 • o.ax0.elem)
    rw [sub_zero, sub_zero] at t1
    have t3 : len (p.elem 0 • o.ax0.elem) ≤ 11 / 10 * |p.elem 0| := by
      by_cases h : o.ax0.valid = true
      · rw [len_smul', mul_comm]; exact mul_le_mul_of_nonneg_right (a0 h) hX
      · rw [hx.resolve_left h, zero_smul, len_zero]; simp
    nlinarith
  rw [← ho0]
  have k3 : len ((if o.ax1.valid then addVec r out0 (scale r o.ax1 (p.elem 1)) else out0).elem - (out0.elem + p.elem 1 • o.ax1.elem)) ≤
      u 53 * len out0.elem + 3 * u 53 * |p.elem 1| := by
    have := len_nonneg out0.elem
    by_cases h : o.ax1.valid = true
    · rw [if_pos h]; exact put_spec' r _ _ (a1 h) _
    · rw [if_neg h, hy.resolve_left h, zero_smul, add_zero, sub_self, len_zero]; positivity
  simp only
  generalize (if o.ax1.valid then addVec r out0 (scale r o.ax1 (p.elem 1)) else out0).elem = c at *
  have k4 := len_triangle c (out0.elem + p.elem 1 • o.ax1.elem) (o.at (p.elem 0) (p.elem 1))
  rw [show out0.elem + p.elem 1 • o.ax1.elem - o.at (p.elem 0) (p.elem 1) = out0.elem - (o.origin.elem + p.elem 0 • o.ax0.elem) by
    unfold Orient.at; abel] at k4
  have k5 := mul_le_mul_of_nonneg_left k2 hu0.le
  have k6 := mul_nonneg hu0.le hO
  have k7 := mul_nonneg hu0.le hX
  have k8 := mul_nonneg hu0.le hY
  nlinarith

/-- A rigid motion without its translation. -/
structure Rigid (A : (Fin n → ℝ) → Fin n → ℝ) : Prop where
  add : ∀ a b, A (a + b) = A a + A b
  smul : ∀ (c : ℝ) a, A (c • a) = c • A a
  dot : ∀ a b, A a ⬝ᵥ A b = a ⬝ᵥ b

variable {A : (Fin n → ℝ) → Fin n → ℝ}

theorem Rigid.len_eq (h : Rigid A) (a : Fin n → ℝ) : len (A a) = len a := by unfold len; rw [h.dot]

theorem Rigid.neg (h : Rigid A) (a : Fin n → ℝ) : A (-a) = -A a := by
  have := h.smul (-1) a
  simpa using this

theorem Rigid.sub (h : Rigid A) (a b : Fin n → ℝ) : A (a - b) = A a - A b := by
  rw [sub_eq_add_neg, h.add, h.neg, sub_eq_add_neg]

theorem rigid_id : Rigid (fun v : Fin n → ℝ => v) := ⟨fun _ _ => rfl, fun _ _ => rfl, fun _ _ => rfl⟩

theorem rigid_mat {R : Matrix (Fin n) (Fin n) ℝ} (hR : Rᵀ * R = 1) : Rigid (fun v => R *ᵥ v) :=
  ⟨fun a b => mulVec_add _ _ _, fun c a => mulVec_smul _ _ _, fun a b => by
    show R *ᵥ a ⬝ᵥ R *ᵥ b = a ⬝ᵥ b
    rw [dotProduct_mulVec, vecMul_mulVec, ← mulVec_transpose, transpose_mul, transpose_transpose, hR, one_mulVec]⟩

theorem rigid_matT {R : Matrix (Fin n) (Fin n) ℝ} (hR : Rᵀ * R = 1) : Rigid (fun v => v ᵥ* R) := by
  have := rigid_mat (R := Rᵀ) (by rw [transpose_transpose]; exact mul_eq_one_comm.1 hR)
  simpa only [mulVec_transpose] using this

open scoped Quaternion in
theorem rigid_act {h : ℍ[ℝ]} (hu : Quaternion.normSq h = 1) : Rigid (act h) := ⟨act_add hu, act_smul hu, act_dot hu⟩

/-- An axis turned with an error `E` keeps its length nearly. -/
theorem axis_len (hA : Rigid A) {a a' : Fin n → ℝ} {E : ℝ} (hE1 : E ≤ 1 / 100) (ha : len a ≤ 21 / 20) (h : len (a' - A a) ≤ E * len a) : len a' ≤ 11 / 10 := by
  have h1 := len_triangle a' (A a) 0
  rw [sub_zero, sub_zero, hA.len_eq] at h1
  have := len_nonneg a
  nlinarith

/-- The products of axes turned with an error `E`. -/
theorem axis_dot (hA : Rigid A) {a a' b b' : Fin n → ℝ} {E : ℝ} (hE : 0 ≤ E) (hE1 : E ≤ 1 / 100) (ha : len a ≤ 21 / 20) (hb : len b ≤ 21 / 20)
    (h : len (a' - A a) ≤ E * len a) (h' : len (b' - A b) ≤ E * len b) : |a' ⬝ᵥ b' - a ⬝ᵥ b| ≤ 3 * E := by
  have e : a' ⬝ᵥ b' - a ⬝ᵥ b = (a' - A a) ⬝ᵥ b' + A a ⬝ᵥ (b' - A b) := by
    rw [sub_dotProduct, dotProduct_sub, hA.dot]; ring
  rw [e]
  have k1 := abs_dot_le_len (a' - A a) b'
  have k2 := abs_dot_le_len (A a) (b' - A b)
  rw [hA.len_eq] at k2
  have hb' := axis_len hA hE1 hb h'
  have l1 := len_nonneg a
  have l2 := len_nonneg b
  have l3 := len_nonneg b'
  have m1 : E * len a ≤ E * (21 / 20) := mul_le_mul_of_nonneg_left ha hE
  have m2 : E * len b ≤ E * (21 / 20) := mul_le_mul_of_nonneg_left hb hE
  have k3 : len (a' - A a) * len b' ≤ E * (21 / 20) * (11 / 10) := mul_le_mul (h.trans m1) hb' l3 (by positivity)
  have k4 : len a * len (b' - A b) ≤ 21 / 20 * (E * (21 / 20)) := mul_le_mul ha (h'.trans m2) (len_nonneg _) (by norm_num)
  have k5 := abs_add_le ((a' - A a) ⬝ᵥ b') (A a ⬝ᵥ (b' - A b))
  linarith

/-- The stored plane after a motion: the axes are turned with an error `E`. -/
structure Turned (A : (Fin n → ℝ) → Fin n → ℝ) (E : ℝ) (o o' : Orient n) : Prop where
  v0 : o'.ax0.valid = o.ax0.valid
  v1 : o'.ax1.valid = o.ax1.valid
  vo : o.origin.valid = true → o'.origin.valid = true
  a0 : o.ax0.valid = true → len (o'.ax0.elem - A o.ax0.elem) ≤ E * len o.ax0.elem
  a1 : o.ax1.valid = true → len (o'.ax1.elem - A o.ax1.elem) ≤ E * len o.ax1.elem

theorem Turned.basis (hA : Rigid A) {E η : ℝ} (hE : 0 ≤ E) (hE1 : E ≤ 1 / 100) (hη : η ≤ 1 / 10) {o o' : Orient n} (h : Turned A E o o') (hb : NearBasis o η) :
    NearBasis o' (η + 3 * E) := by
  have L0 := fun v => len_of_near (hb.unit0 v) hη
  have L1 := fun v => len_of_near (hb.unit1 v) hη
  refine ⟨fun v => ?_, fun v => ?_, fun v => ?_, fun v => ?_⟩
  · rw [h.v0]; rw [h.v1] at v; exact hb.second v
  · rw [h.v0] at v
    have k := axis_dot hA hE hE1 (L0 v) (L0 v) (h.a0 v) (h.a0 v)
    have := abs_sub_le (o'.ax0.elem ⬝ᵥ o'.ax0.elem) (o.ax0.elem ⬝ᵥ o.ax0.elem) 1
    have := hb.unit0 v
    linarith
  · rw [h.v1] at v
    have k := axis_dot hA hE hE1 (L1 v) (L1 v) (h.a1 v) (h.a1 v)
    have := abs_sub_le (o'.ax1.elem ⬝ᵥ o'.ax1.elem) (o.ax1.elem ⬝ᵥ o.ax1.elem) 1
    have := hb.unit1 v
    linarith
  · rw [h.v1] at v
    have k := axis_dot hA hE hE1 (L0 (hb.second v)) (L1 v) (h.a0 (hb.second v)) (h.a1 v)
    have := abs_sub_le (o'.ax0.elem ⬝ᵥ o'.ax1.elem) (o.ax0.elem ⬝ᵥ o.ax1.elem) 0
    rw [sub_zero, sub_zero] at this
    have := hb.perp v
    linarith

/-- Reading a corner before and after a motion `x ↦ b + A x`. -/
theorem read_moved (r : Rounding 53) (hA : Rigid A) {E η e0 : ℝ} (hE : 0 ≤ E) (hE1 : E ≤ 1 / 100) (hη : η ≤ 1 / 10) {o o' : Orient n} (h : Turned A E o o')
    (hb : NearBasis o η) {b : Fin n → ℝ} (h0 : len (o'.origin.elem - (b + A o.origin.elem)) ≤ e0) {q : Pt 2} {c : Pt n} (hc : convert r o q = some c) :
    ∃ c', convert r o' q = some c' ∧ c'.valid = c.valid ∧
      len (c'.elem - (b + A c.elem)) ≤ (1 + 3 * u 53) * e0 + 3 * u 53 * len (b + A o.origin.elem) + 3 * u 53 * len o.origin.elem + (11 / 10 * E + 10 * u 53) * reach q := by
  have hu0 : 0 < u 53 := u_pos
  have L0 := fun v => len_of_near (hb.unit0 v) hη
  have L1 := fun v => len_of_near (hb.unit1 v) hη
  obtain ⟨w0, w1, w2⟩ := convert_some r hc
  obtain ⟨c1, e1, f1, g1⟩ := convert_near r (fun v => (L0 v).trans (by norm_num)) (fun v => (L1 v).trans (by norm_num)) w0 w1 w2
  rw [hc] at e1; cases e1
  obtain ⟨c', e2, f2, g2⟩ := convert_near r (o := o') (p := q) (fun v => axis_len hA hE1 (L0 (h.v0 ▸ v)) (h.a0 (h.v0 ▸ v)))
    (fun v => axis_len hA hE1 (L1 (h.v1 ▸ v)) (h.a1 (h.v1 ▸ v))) (h.vo w0) (by rw [h.v0]; exact w1) (by rw [h.v1]; exact w2)
  refine ⟨c', e2, f2.trans f1.symm, ?_⟩
  -- the exact corners
  have x0 : len (q.elem 0 • (o'.ax0.elem - A o.ax0.elem)) ≤ 11 / 10 * E * |q.elem 0| := by
    rcases w1 with v | v
    · rw [len_smul']
      have := mul_le_mul_of_nonneg_left ((h.a0 v).trans (mul_le_mul_of_nonneg_left (L0 v) hE)) (abs_nonneg (q.elem 0))
      have := mul_nonneg hE (abs_nonneg (q.elem 0))
      linarith
    · rw [v, zero_smul, len_zero]; simp
  have x1 : len (q.elem 1 • (o'.ax1.elem - A o.ax1.elem)) ≤ 11 / 10 * E * |q.elem 1| := by
    rcases w2 with v | v
    · rw [len_smul']
      have := mul_le_mul_of_nonneg_left ((h.a1 v).trans (mul_le_mul_of_nonneg_left (L1 v) hE)) (abs_nonneg (q.elem 1))
      have := mul_nonneg hE (abs_nonneg (q.elem 1))
      linarith
    · rw [v, zero_smul, len_zero]; simp
  have x2 : o'.at (q.elem 0) (q.elem 1) - (b + A (o.at (q.elem 0) (q.elem 1))) =
      (o'.origin.elem - (b + A o.origin.elem)) + q.elem 0 • (o'.ax0.elem - A o.ax0.elem) + q.elem 1 • (o'.ax1.elem - A o.ax1.elem) := by
    unfold Orient.at
    rw [hA.add, hA.add, hA.smul, hA.smul, smul_sub, smul_sub]; abel
  have y1 := len_add_le (o'.origin.elem - (b + A o.origin.elem) + q.elem 0 • (o'.ax0.elem - A o.ax0.elem)) (q.elem 1 • (o'.ax1.elem - A o.ax1.elem))
  have y2 := len_add_le (o'.origin.elem - (b + A o.origin.elem)) (q.elem 0 • (o'.ax0.elem - A o.ax0.elem))
  rw [← x2] at y1
  have y3 := len_triangle c'.elem (o'.at (q.elem 0) (q.elem 1)) (b + A c.elem)
  have y4 := len_triangle (o'.at (q.elem 0) (q.elem 1)) (b + A (o.at (q.elem 0) (q.elem 1))) (b + A c.elem)
  rw [show b + A (o.at (q.elem 0) (q.elem 1)) - (b + A c.elem) = -A (c.elem - o.at (q.elem 0) (q.elem 1)) by rw [hA.sub]; abel, len_neg, hA.len_eq] at y4
  have y5 := len_triangle o'.origin.elem (b + A o.origin.elem) 0
  rw [sub_zero, sub_zero] at y5
  have y6 := mul_le_mul_of_nonneg_left (y5.trans (add_le_add_left h0 _)) hu0.le
  unfold reach at *
  linarith

/-- The vector from the origin of the plane to a point of it. -/
theorem scale_near (r : Rounding 53) (a : Vec n) (ha : len a.elem ≤ 21 / 20) (x : ℝ) : len ((scale r a x).elem - x • a.elem) ≤ 21 / 20 * u 53 * |x| := by
  have h1 := len_round r (x • a.elem)
  have e1 : (fun i => r ((x • a.elem) i)) = (scale r a x).elem := by
    funext i; show r (x * a.elem i) = r (a.elem i * x); rw [mul_comm]
  rw [e1, ← u53, len_smul'] at h1
  have hu0 : 0 < u 53 := u_pos
  have := mul_le_mul_of_nonneg_left (mul_le_mul_of_nonneg_left ha (abs_nonneg x)) hu0.le
  linarith

theorem add_near (r : Rounding 53) (a b : Vec n) (ha : len a.elem ≤ 21 / 20) (hb : len b.elem ≤ 21 / 20) (x y : ℝ) :
    len ((add r (scale r a x) (scale r b y)).elem - (x • a.elem + y • b.elem)) ≤ 3 * u 53 * (|x| + |y|) := by
  have hu0 : 0 < u 53 := u_pos
  have hu : u 53 ≤ 1 / 1000000 := by rw [u53]; norm_num
  have h1 := scale_near r a ha x
  have h2 := scale_near r b hb y
  have h3 := len_round r ((scale r a x).elem + (scale r b y).elem)
  have e : (fun i => r (((scale r a x).elem + (scale r b y).elem) i)) = (add r (scale r a x) (scale r b y)).elem := rfl
  rw [e, ← u53] at h3
  have h4 := len_triangle (add r (scale r a x) (scale r b y)).elem ((scale r a x).elem + (scale r b y).elem) (x • a.elem + y • b.elem)
  rw [show (scale r a x).elem + (scale r b y).elem - (x • a.elem + y • b.elem) = ((scale r a x).elem - x • a.elem) + ((scale r b y).elem - y • b.elem) by abel] at h4
  have h5 := len_add_le ((scale r a x).elem - x • a.elem) ((scale r b y).elem - y • b.elem)
  have h6 := len_add_le (scale r a x).elem (scale r b y).elem
  have h7 := len_triangle (scale r a x).elem (x • a.elem) 0
  have h8 := len_triangle (scale r b y).elem (y • b.elem) 0
  rw [sub_zero, sub_zero, len_smul'] at h7 h8
  have hX := abs_nonneg x
  have hY := abs_nonneg y
  have m1 := mul_le_mul_of_nonneg_left ha hX
  have m2 := mul_le_mul_of_nonneg_left hb hY
  have n1 := mul_le_mul_of_nonneg_right hu hX
  have n2 := mul_le_mul_of_nonneg_right hu hY
  have h9 : len ((scale r a x).elem + (scale r b y).elem) ≤ 1.06 * (|x| + |y|) := by linarith
  have h10 := mul_le_mul_of_nonneg_left h9 hu0.le
  have n3 := mul_nonneg hu0.le hX
  have n4 := mul_nonneg hu0.le hY
  linarith

/-- The new origin when the plane is turned about the point `X` away from the old one. -/
theorem origin_turned (r : Rounding 53) (hA : Rigid A) {E ρ : ℝ} (hE : 0 ≤ E) (hE1 : E ≤ 1 / 100) (O : Pt n) (sh t : Vec n) (X : Fin n → ℝ)
    (hX : len X ≤ 21 / 20 * ρ) (hs : len (sh.elem - X) ≤ 3 * u 53 * ρ) (ht : len (t.elem - A sh.elem) ≤ E * len sh.elem) :
    len ((addVec r O (sub r sh t)).elem - (O.elem + X - A X)) ≤ 11 / 10 * E * ρ + 12 * u 53 * ρ + u 53 * len O.elem := by
  have hu0 : 0 < u 53 := u_pos
  have hu : u 53 ≤ 1 / 1000000 := by rw [u53]; norm_num
  have hρ : 0 ≤ ρ := by have := (len_nonneg X).trans hX; linarith
  have hO := len_nonneg O.elem
  have huρ := mul_nonneg hu0.le hρ
  have hEρ := mul_nonneg hE hρ
  have l1 := len_triangle sh.elem X 0
  rw [sub_zero, sub_zero] at l1
  have n1 := mul_le_mul_of_nonneg_right hu hρ
  have ls : len sh.elem ≤ 1.06 * ρ := by linarith
  have ht' : len (t.elem - A sh.elem) ≤ 1.06 * (E * ρ) := ht.trans (by have := mul_le_mul_of_nonneg_left ls hE; linarith)
  have l2 := len_triangle t.elem (A sh.elem) 0
  rw [sub_zero, sub_zero, hA.len_eq] at l2
  have lt : len t.elem ≤ 1.08 * ρ := by have := mul_le_mul_of_nonneg_right hE1 hρ; linarith
  -- the difference
  have d1 := len_round r (sh.elem - t.elem)
  have e1 : (fun i => r ((sh.elem - t.elem) i)) = (sub r sh t).elem := rfl
  rw [e1, ← u53] at d1
  have d2 := len_add_le sh.elem (-t.elem)
  rw [len_neg, ← sub_eq_add_neg] at d2
  have d3 := mul_le_mul_of_nonneg_left (d2.trans (add_le_add ls lt)) hu0.le
  have d4 := len_triangle (sub r sh t).elem (sh.elem - t.elem) (X - A X)
  rw [show sh.elem - t.elem - (X - A X) = (sh.elem - X) - ((t.elem - A sh.elem) + A (sh.elem - X)) by rw [hA.sub]; abel] at d4
  have d5 := len_sub_le (sh.elem - X) ((t.elem - A sh.elem) + A (sh.elem - X))
  have d6 := len_add_le (t.elem - A sh.elem) (A (sh.elem - X))
  rw [hA.len_eq] at d6
  have dw : len ((sub r sh t).elem - (X - A X)) ≤ 1.06 * (E * ρ) + 8.2 * (u 53 * ρ) := by linarith
  have w1 := len_triangle (sub r sh t).elem (X - A X) 0
  have w2 := len_sub_le X (A X)
  rw [sub_zero, sub_zero] at w1
  rw [hA.len_eq] at w2
  have w3 : len (sub r sh t).elem ≤ 2.2 * ρ := by have := mul_le_mul_of_nonneg_right hE1 hρ; linarith
  -- the sum
  have s1 := len_round r (O.elem + (sub r sh t).elem)
  have e2 : (fun i => r ((O.elem + (sub r sh t).elem) i)) = (addVec r O (sub r sh t)).elem := rfl
  rw [e2, ← u53] at s1
  have s2 := len_add_le O.elem (sub r sh t).elem
  have s3 := mul_le_mul_of_nonneg_left (s2.trans (add_le_add_right w3 _)) hu0.le
  have s4 := len_triangle (addVec r O (sub r sh t)).elem (O.elem + (sub r sh t).elem) (O.elem + X - A X)
  rw [show O.elem + (sub r sh t).elem - (O.elem + X - A X) = (sub r sh t).elem - (X - A X) by abel] at s4
  linarith

/-- Turning the plane about one of its points. -/
theorem rotate2_spec (r : Rounding 53) (m : RotMat n) (hv : m.valid = true) (hA : Rigid A) {E η : ℝ} (hE : 0 ≤ E) (hE1 : E ≤ 1 / 100) (hη : η ≤ 1 / 10)
    (hm : ∀ v : Vec n, len ((vecMat r m v).elem - A v.elem) ≤ E * len v.elem) {o : Orient n} (hb : NearBasis o η) {z : Pt 2} {g : Pt n} (hg : convert r o z = some g) :
    ∃ o', orRotate2 r o m z = some o' ∧ NearBasis o' (η + 3 * E) ∧
      ∀ q c, convert r o q = some c → ∃ c', convert r o' q = some c' ∧ c'.valid = c.valid ∧
        len (c'.elem - (g.elem + A (c.elem - g.elem))) ≤ (11 / 10 * E + 32 * u 53) * (reach z + reach q) + 16 * u 53 * len o.origin.elem := by
  have hu0 : 0 < u 53 := u_pos
  have hu : u 53 ≤ 1 / 1000000 := by rw [u53]; norm_num
  have L0 := fun v => len_of_near (hb.unit0 v) hη
  have L1 := fun v => len_of_near (hb.unit1 v) hη
  obtain ⟨w0, w1, w2⟩ := convert_some r hg
  obtain ⟨g1, e1, f1, G1⟩ := convert_near r (fun v => (L0 v).trans (by norm_num)) (fun v => (L1 v).trans (by norm_num)) w0 w1 w2
  rw [hg] at e1; cases e1
  have hz := reach_nonneg z
  have hO := len_nonneg o.origin.elem
  by_cases h0 : o.ax0.valid = true
  swap
  · have h1 : ¬ o.ax1.valid = true := fun h => h0 (hb.second h)
    have z0 := w1.resolve_left h0
    have z1 := w2.resolve_left h1
    refine ⟨o, ?_, ⟨hb.second, fun v => absurd v h0, fun v => absurd v h1, fun v => absurd v h1⟩, fun q c hc => ⟨c, hc, rfl, ?_⟩⟩
    · unfold orRotate2
      rw [if_neg (by simp [w0]), if_pos (by simpa using h0), if_pos ⟨z0, z1⟩]
    · have rd : ∀ {q : Pt 2} {c : Pt n}, convert r o q = some c → c.elem = o.origin.elem := by
        intro q c hc
        obtain ⟨a1, a2, a3⟩ := convert_some r hc
        unfold convert at hc
        rw [if_neg (by simp [w0]), if_neg (fun h => h.2 (a2.resolve_left h0)), if_neg (fun h => h.2 (a3.resolve_left h1))] at hc
        simp only [h0, h1, if_false, Bool.false_eq_true, Option.some.injEq] at hc
        rw [← hc]
      rw [rd hc, rd hg, sub_self]
      have : A 0 = 0 := by simpa using hA.smul 0 0
      rw [this, add_zero, sub_self, len_zero]
      have := reach_nonneg q
      positivity
  -- there is a first axis
  have key : ∀ (sh : Vec n) (X : Fin n → ℝ), sh.valid = true → len X ≤ 21 / 20 * reach z → len (sh.elem - X) ≤ 3 * u 53 * reach z →
      o.at (z.elem 0) (z.elem 1) = o.origin.elem + X → ∀ a1 : Vec n, a1.valid = o.ax1.valid → (o.ax1.valid = true → len (a1.elem - A o.ax1.elem) ≤ E * len o.ax1.elem) →
      NearBasis (⟨addVec r o.origin (sub r sh (vecMat r m sh)), vecMat r m o.ax0, a1⟩ : Orient n) (η + 3 * E) ∧
      ∀ q c, convert r o q = some c → ∃ c', convert r ⟨addVec r o.origin (sub r sh (vecMat r m sh)), vecMat r m o.ax0, a1⟩ q = some c' ∧ c'.valid = c.valid ∧
        len (c'.elem - (g.elem + A (c.elem - g.elem))) ≤ (11 / 10 * E + 32 * u 53) * (reach z + reach q) + 16 * u 53 * len o.origin.elem := by
    intro sh X hsv hX hs hat a1 ha1 ha1'
    have hT : Turned A E o ⟨addVec r o.origin (sub r sh (vecMat r m sh)), vecMat r m o.ax0, a1⟩ :=
      ⟨by simp [vecMat, hv], ha1, fun _ => by simp [addVec, sub, vecMat, hsv, w0, hv], fun _ => hm _, ha1'⟩
    refine ⟨hT.basis hA hE hE1 hη hb, fun q c hc => ?_⟩
    have hq := reach_nonneg q
    have ho := origin_turned r hA hE hE1 o.origin sh (vecMat r m sh) X hX hs (hm sh)
    obtain ⟨c', k1, k2, k3⟩ := read_moved r hA hE hE1 hη hT hb (b := o.origin.elem + X - A (o.origin.elem + X))
      (e0 := 11 / 10 * E * reach z + 12 * u 53 * reach z + u 53 * len o.origin.elem)
      (by rw [hA.add, show o.origin.elem + X - (A o.origin.elem + A X) + A o.origin.elem = o.origin.elem + X - A X by abel]; exact ho) hc
    refine ⟨c', k1, k2, ?_⟩
    rw [← hat] at k3
    have d := len_triangle c'.elem (o.at (z.elem 0) (z.elem 1) - A (o.at (z.elem 0) (z.elem 1)) + A c.elem) (g.elem + A (c.elem - g.elem))
    rw [show o.at (z.elem 0) (z.elem 1) - A (o.at (z.elem 0) (z.elem 1)) + A c.elem - (g.elem + A (c.elem - g.elem)) =
      A (g.elem - o.at (z.elem 0) (z.elem 1)) - (g.elem - o.at (z.elem 0) (z.elem 1)) by rw [hA.sub, hA.sub]; abel] at d
    have d2 := len_sub_le (A (g.elem - o.at (z.elem 0) (z.elem 1))) (g.elem - o.at (z.elem 0) (z.elem 1))
    rw [hA.len_eq] at d2
    have b1 : len (o.at (z.elem 0) (z.elem 1) - A (o.at (z.elem 0) (z.elem 1)) + A o.origin.elem) ≤ len o.origin.elem + 2.1 * reach z := by
      rw [hat, hA.add, show o.origin.elem + X - (A o.origin.elem + A X) + A o.origin.elem = o.origin.elem + (X - A X) by abel]
      have t1 := len_add_le o.origin.elem (X - A X)
      have t2 := len_sub_le X (A X)
      rw [hA.len_eq] at t2
      linarith
    have b2 := mul_le_mul_of_nonneg_left b1 hu0.le
    have s1 := mul_nonneg hu0.le hz
    have s2 := mul_nonneg hu0.le hO
    have s3 := mul_nonneg hE hz
    have s4 := mul_nonneg hu0.le hq
    have s5 : u 53 * (E * reach z) ≤ 1 / 100 * (u 53 * reach z) := by
      have := mul_le_mul_of_nonneg_right hE1 s1; linarith
    have s6 : u 53 * (u 53 * reach z) ≤ 1 / 1000000 * (u 53 * reach z) := mul_le_mul_of_nonneg_right hu s1
    have s7 : u 53 * (u 53 * len o.origin.elem) ≤ 1 / 1000000 * (u 53 * len o.origin.elem) := mul_le_mul_of_nonneg_right hu s2
    linarith
  by_cases h1 : o.ax1.valid = true
  · obtain ⟨k1, k2⟩ := key (add r (scale r o.ax0 (z.elem 0)) (scale r o.ax1 (z.elem 1))) (z.elem 0 • o.ax0.elem + z.elem 1 • o.ax1.elem)
      (by simp [add, scale, h0, h1]) (by
        have t := len_add_le (z.elem 0 • o.ax0.elem) (z.elem 1 • o.ax1.elem)
        rw [len_smul', len_smul'] at t
        have t1 := mul_le_mul_of_nonneg_left (L0 h0) (abs_nonneg (z.elem 0))
        have t2 := mul_le_mul_of_nonneg_left (L1 h1) (abs_nonneg (z.elem 1))
        unfold reach; linarith) (add_near r _ _ (L0 h0) (L1 h1) _ _) (by unfold Orient.at; abel) (vecMat r m o.ax1) (by simp [vecMat, hv]) (fun _ => hm _)
    refine ⟨_, ?_, k1, k2⟩
    unfold orRotate2
    rw [if_neg (by simp [w0]), if_neg (by simp [h0]), if_pos h1]
  · have z1 := w2.resolve_left h1
    obtain ⟨k1, k2⟩ := key (scale r o.ax0 (z.elem 0)) (z.elem 0 • o.ax0.elem)
      (by simp [scale, h0]) (by
        rw [len_smul']
        have t1 := mul_le_mul_of_nonneg_left (L0 h0) (abs_nonneg (z.elem 0))
        unfold reach; rw [z1, abs_zero]; linarith) (by
        refine (scale_near r _ (L0 h0) _).trans ?_
        have := mul_nonneg hu0.le (abs_nonneg (z.elem 0))
        unfold reach; rw [z1, abs_zero]; linarith) (by unfold Orient.at; rw [z1, zero_smul, add_zero]) o.ax1 rfl (fun v => absurd v h1)
    refine ⟨_, ?_, k1, k2⟩
    unfold orRotate2
    rw [if_neg (by simp [w0]), if_neg (by simp [h0]), if_neg h1, if_neg (by simp [z1])]

end Fl
end WFMath
