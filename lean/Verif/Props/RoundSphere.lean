/- Property theorems C129: sloppy lengths and the bounding spheres made with them in floating point arithmetic. -/
import Verif.Model.RoundedSphere
import Verif.Props.RoundMatrix
import Verif.Props.RoundBound
import Verif.Props.BoundingSphere

namespace WFMath
open Spec Matrix
open WFMath.Spec.Rounding (u)
variable {n : Nat}

namespace Fl
open Sloppy

theorem slopP_err (r : Rounding 53) : |slopP r - p| ≤ 4 * 2 ^ (-53 : ℤ) := by
  have h2 := Sloppy.sqrt2_lo; have h2' := Sloppy.sqrt2_hi
  have h1 := r.err pos53 (Real.sqrt 2)
  rw [u53, abs_of_pos (show 0 < Real.sqrt 2 by linarith)] at h1
  have h3 := err_sub r (a' := sqrt2 r) (a := Real.sqrt 2) (b' := 1) (b := 1) h1 (show |(1 : ℝ) - 1| ≤ 0 by simp)
    (show |Real.sqrt 2| ≤ 3 / 2 by rw [abs_of_pos (by linarith)]; linarith) (show |(1 : ℝ)| ≤ 1 by simp)
  refine h3.trans ?_
  norm_num
  linarith

theorem slopQ_err (r : Rounding 53) : |slopQ r - q| ≤ 17 * 2 ^ (-53 : ℤ) := by
  have h2 := Sloppy.sqrt2_lo; have h2' := Sloppy.sqrt2_hi
  have h3 := Sloppy.sqrt3_lo; have h3' := Sloppy.sqrt3_hi
  have h1 := r.err pos53 (Real.sqrt 2)
  rw [u53, abs_of_pos (show 0 < Real.sqrt 2 by linarith)] at h1
  have h4 := r.err pos53 (Real.sqrt 3)
  rw [u53, abs_of_pos (show 0 < Real.sqrt 3 by linarith)] at h4
  have b2 : |Real.sqrt 2| ≤ 3 / 2 := by rw [abs_of_pos (by linarith)]; linarith
  have b3 : |Real.sqrt 3| ≤ 7 / 4 := by rw [abs_of_pos (by linarith)]; linarith
  have h5 := err_add r (a' := sqrt3 r) (a := Real.sqrt 3) (b' := 1) (b := 1) h4 (show |(1 : ℝ) - 1| ≤ 0 by simp) b3 (show |(1 : ℝ)| ≤ 1 by simp)
  have h6 := err_mul r (a' := 2) (a := 2) (b' := sqrt2 r) (b := Real.sqrt 2) (show |(2 : ℝ) - 2| ≤ 0 by simp) h1 (show |(2 : ℝ)| ≤ 2 by simp) b2
  have h7 := err_sub r h5 h6 ((abs_add_le _ _).trans (add_le_add b3 (show |(1 : ℝ)| ≤ 1 by simp))) (show |2 * Real.sqrt 2| ≤ 3 by rw [abs_mul, abs_two]; linarith)
  refine h7.trans ?_
  norm_num
  linarith

theorem slop2_err (r : Rounding 53) {a b : ℝ} (hb : 0 ≤ b) (hab : b ≤ a) : |r (a + r (slopP r * b)) - (a + p * b)| ≤ 8 * 2 ^ (-53 : ℤ) * a := by
  have hp := p_lo; have hp' := p_hi
  have ha := hb.trans hab
  have aP : |p| ≤ 1 / 2 := by rw [abs_of_pos (by linarith)]; linarith
  have bB : |b| ≤ a := by rwa [abs_of_nonneg hb]
  have h1 := err_mul r (slopP_err r) (show |b - b| ≤ 0 by simp) aP bB
  have h2 := err_add r (show |a - a| ≤ 0 by simp) h1 (le_of_eq (abs_of_nonneg ha)) (show |p * b| ≤ 1 / 2 * a by rw [abs_mul]; exact mul_le_mul aP bB (abs_nonneg _) (by norm_num))
  refine h2.trans ?_
  norm_num
  linarith

theorem slop3_err (r : Rounding 53) {a b c : ℝ} (ha : 0 < a) (hb : 0 ≤ b) (hc : 0 ≤ c) (hab : b ≤ a) (hac : c ≤ a) :
    |slop3 r a b c - (a + p * (b + c) + q * b * c / a)| ≤ 40 * 2 ^ (-53 : ℤ) * a := by
  have hp := p_lo; have hp' := p_hi
  have hq := q_lo; have hq' := q_hi
  have aP : |p| ≤ 1 / 2 := by rw [abs_of_pos (by linarith)]; linarith
  have aQ : |q| ≤ 1 / 10 := by rw [abs_of_neg (by linarith)]; linarith
  have bB : |b| ≤ a := by rwa [abs_of_nonneg hb]
  have bC : |c| ≤ a := by rwa [abs_of_nonneg hc]
  have s1 := err_add r (show |b - b| ≤ 0 by simp) (show |c - c| ≤ 0 by simp) bB bC
  have s1B : |b + c| ≤ 2 * a := by rw [abs_of_nonneg (by linarith)]; linarith
  have s2 := err_mul r (slopP_err r) s1 aP s1B
  have s2B : |p * (b + c)| ≤ a := by rw [abs_mul]; exact (mul_le_mul aP s1B (abs_nonneg _) (by norm_num)).trans (by linarith)
  have s3 := err_add r (show |a - a| ≤ 0 by simp) s2 (le_of_eq (abs_of_nonneg ha.le)) s2B
  have s3B : |a + p * (b + c)| ≤ 2 * a := (abs_add_le _ _).trans (by rw [abs_of_pos ha]; linarith)
  have t1 := err_mul r (slopQ_err r) (show |b - b| ≤ 0 by simp) aQ bB
  have t1B : |q * b| ≤ 1 / 10 * a := by rw [abs_mul]; exact mul_le_mul aQ bB (abs_nonneg _) (by norm_num)
  have t1' : |r (slopQ r * b) - q * b| ≤ 18 * 2 ^ (-53 : ℤ) * a := t1.trans (by norm_num; linarith)
  have t2 := err_mul r t1' (show |c - c| ≤ 0 by simp) t1B bC
  have t2' : |r (r (slopQ r * b) * c) - q * b * c| ≤ 19 * 2 ^ (-53 : ℤ) * (a * a) := t2.trans (by
    have : 0 ≤ a * a := mul_self_nonneg a
    norm_num; nlinarith)
  have t3 : |r (r (slopQ r * b) * c) / a - q * b * c / a| ≤ 19 * 2 ^ (-53 : ℤ) * a := by
    rw [← sub_div, abs_div, abs_of_pos ha, div_le_iff₀ ha]
    linarith
  have t3B : |q * b * c / a| ≤ 1 / 10 * a := by
    rw [abs_div, abs_of_pos ha, div_le_iff₀ ha, abs_mul]
    have := mul_le_mul t1B bC (abs_nonneg _) (by positivity)
    linarith
  have t4 := err_add r t3 (show |(0 : ℝ) - 0| ≤ 0 by simp) t3B (show |(0 : ℝ)| ≤ 0 by simp)
  rw [add_zero, add_zero] at t4
  have h := err_add r s3 t4 s3B t3B
  refine h.trans ?_
  norm_num
  linarith

theorem sloppyMag2_err (r : Rounding 53) (v : Vec 2) : |sloppyMag2 r v - v.sloppyMag2| ≤ 40 * 2 ^ (-53 : ℤ) * v.mag := by
  have h0 := abs_le_len v.elem 0
  have h1 := abs_le_len v.elem 1
  rw [← mag_eq_len] at h0 h1
  have hm := (abs_nonneg _).trans h0
  have a0 := abs_nonneg (v.elem 0)
  have a1 := abs_nonneg (v.elem 1)
  unfold sloppyMag2 Vec.sloppyMag2
  dsimp only
  generalize |v.elem 0| = x at *
  generalize |v.elem 1| = y at *
  generalize v.mag = m at *
  split_ifs with c1 c2
  · exact (slop2_err r a1 c1.lt.le).trans (by norm_num; linarith)
  · exact (slop2_err r a0 (not_lt.1 c1)).trans (by norm_num; linarith)
  · simp only [sub_zero, abs_zero]; positivity

theorem sloppyMag3_err (r : Rounding 53) (v : Vec 3) : |sloppyMag3 r v - v.sloppyMag3| ≤ 40 * 2 ^ (-53 : ℤ) * v.mag := by
  have h0 := abs_le_len v.elem 0
  have h1 := abs_le_len v.elem 1
  have h2 := abs_le_len v.elem 2
  rw [← mag_eq_len] at h0 h1 h2
  have hm := (abs_nonneg _).trans h0
  have a0 := abs_nonneg (v.elem 0)
  have a1 := abs_nonneg (v.elem 1)
  have a2 := abs_nonneg (v.elem 2)
  unfold sloppyMag3 Vec.sloppyMag3
  dsimp only
  generalize |v.elem 0| = x at *
  generalize |v.elem 1| = y at *
  generalize |v.elem 2| = z at *
  generalize v.mag = m at *
  have key : ∀ a, a ≤ m → 40 * (2 : ℝ) ^ (-53 : ℤ) * a ≤ 40 * 2 ^ (-53 : ℤ) * m := fun a h => by norm_num; linarith
  split_ifs with c1 c2 c3
  · exact (slop3_err r (a1.trans_lt c1.1) a1 a2 c1.1.lt.le c1.2.lt.le).trans (key _ h0)
  · have hxy : x ≤ y := by
      by_contra hx
      exact c1 ⟨not_le.1 hx, c2.lt.trans (not_le.1 hx)⟩
    exact (slop3_err r (a2.trans_lt c2) a0 a2 hxy c2.lt.le).trans (key _ h1)
  · have hyz : y ≤ z := not_lt.1 c2
    have hxz : x ≤ z := by
      by_contra hx
      exact c1 ⟨hyz.trans_lt (not_le.1 hx), not_le.1 hx⟩
    exact (slop3_err r c3 a0 a1 hxz hyz).trans (key _ h2)
  · simp only [sub_zero, abs_zero]; positivity

/-- What the bounding spheres need to know of a computed sloppy distance. -/
def SdOk (sd : Pt n → Pt n → ℝ) : Prop := ∀ x y, eucl x.elem y.elem ≤ sd x y * (1 + 64 * 2 ^ (-53 : ℤ)) ∧ sd x y ≤ 2 * eucl x.elem y.elem

theorem ptSub_len (r : Rounding 53) (x y : Pt n) : |(ptSub r x y).mag - eucl x.elem y.elem| ≤ 2 ^ (-53 : ℤ) * eucl x.elem y.elem := by
  have h := len_round r (x.elem - y.elem)
  rw [mag_eq_len, eucl_eq_len]
  have h1 := len_add_le ((ptSub r x y).elem - (x.elem - y.elem)) (x.elem - y.elem)
  have h2 := len_add_le ((x.elem - y.elem) - (ptSub r x y).elem) (ptSub r x y).elem
  rw [len_sub_comm] at h2
  rw [sub_add_cancel] at h1 h2
  have e : (fun i => r ((x.elem - y.elem) i)) = (ptSub r x y).elem := rfl
  rw [e] at h
  rw [abs_le]
  constructor <;> linarith

theorem sdOk_of {sd : Pt n → Pt n → ℝ} (r : Rounding 53) (S : Vec n → ℝ) (h1 : ∀ v : Vec n, v.mag ≤ S v ∧ S v ≤ 1.2 * v.mag)
    (h2 : ∀ x y, |sd x y - S (ptSub r x y)| ≤ 40 * 2 ^ (-53 : ℤ) * (ptSub r x y).mag) : SdOk sd := by
  intro x y
  have e := abs_le.1 (ptSub_len r x y)
  have s := abs_le.1 (h2 x y)
  have b := h1 (ptSub r x y)
  have h0 := eucl_nonneg x.elem y.elem
  generalize eucl x.elem y.elem = E at *
  generalize (ptSub r x y).mag = m at *
  generalize S (ptSub r x y) = t at *
  generalize sd x y = d at *
  norm_num at *
  constructor <;> linarith

theorem sdOk2 (r : Rounding 53) : SdOk (sloppyDist2 r) :=
  sdOk_of r Vec.sloppyMag2 (fun v => by
    have h := C19_dim2 v
    have h0 : 0 ≤ v.mag := Real.sqrt_nonneg _
    simp only [Vec.sloppyMagMax] at h
    exact ⟨h.1, h.2.trans (by norm_num; linarith)⟩) fun _ _ => sloppyMag2_err r _

theorem sdOk3 (r : Rounding 53) : SdOk (sloppyDist3 r) :=
  sdOk_of r Vec.sloppyMag3 (fun v => by
    have h := C19_dim3_partial v
    have h0 : 0 ≤ v.mag := Real.sqrt_nonneg _
    exact ⟨h.1, h.2.trans (by norm_num; linarith)⟩) fun _ _ => sloppyMag3_err r _

/-- The new centre and the new radius when a point is outside, ball_funcs.h 150-155. -/
theorem grow_step (r : Rounding 53) {sd : Pt n → Pt n → ℝ} (hsd : SdOk sd) {M : ℝ} (c x : Pt n) (ρ : ℝ) (h0 : 0 ≤ ρ) (h7 : ρ ≤ 7 * M)
    (hc : len c.elem ≤ 2 * M) (hx : len x.elem ≤ M) (hgt : sd x c > ρ) :
    let δ := r (r (sd x c - ρ) / 2)
    let c' := addVec r c (divBy r (scale r (ptSub r x c) δ) (sd x c))
    let ρ' := r (ρ + δ)
    0 ≤ ρ' ∧ ρ' ≤ 7 * M ∧ len c'.elem ≤ max (len c.elem) M + 64 * 2 ^ (-53 : ℤ) * M ∧
    (∀ (y : Fin n → ℝ) (e : ℝ), eucl y c.elem ≤ ρ + e → eucl y c'.elem ≤ ρ' + e + 512 * 2 ^ (-53 : ℤ) * M) ∧
    eucl x.elem c'.elem ≤ ρ' + 512 * 2 ^ (-53 : ℤ) * M := by
  intro δ c' ρ'
  have hM : 0 ≤ M := (len_nonneg _).trans hx
  obtain ⟨d1, d2⟩ := hsd x c
  have hD : eucl x.elem c.elem ≤ len x.elem + len c.elem := by rw [eucl_eq_len]; exact len_sub_le _ _
  have hD0 := eucl_nonneg x.elem c.elem
  -- the shift
  have e1 := r.err pos53 (sd x c - ρ)
  have e2 := r.err pos53 (r (sd x c - ρ) / 2)
  have hpos : 0 ≤ r (sd x c - ρ) := r.nonneg (by linarith)
  rw [u53, abs_of_pos (show 0 < sd x c - ρ by linarith)] at e1
  rw [u53, abs_of_nonneg (show 0 ≤ r (sd x c - ρ) / 2 by linarith)] at e2
  have hδ0 : 0 ≤ δ := r.nonneg (by linarith)
  have e3 := r.err pos53 (ρ + δ)
  rw [u53, abs_of_nonneg (show 0 ≤ ρ + δ by linarith)] at e3
  have hρ' : 0 ≤ ρ' := r.nonneg (by linarith)
  have e1' := abs_le.1 e1
  have e2' : -(2 ^ (-53 : ℤ) * (r (sd x c - ρ) / 2)) ≤ δ - r (sd x c - ρ) / 2 ∧ δ - r (sd x c - ρ) / 2 ≤ 2 ^ (-53 : ℤ) * (r (sd x c - ρ) / 2) := abs_le.1 e2
  have e3' : -(2 ^ (-53 : ℤ) * (ρ + δ)) ≤ ρ' - (ρ + δ) ∧ ρ' - (ρ + δ) ≤ 2 ^ (-53 : ℤ) * (ρ + δ) := abs_le.1 e3
  have hnd : 0 < sd x c := by linarith
  -- where the centre goes
  set t := δ / sd x c with ht
  have ht0 : 0 ≤ t := div_nonneg hδ0 hnd.le
  have htn : t * sd x c = δ := div_mul_cancel₀ _ hnd.ne'
  have ht1 : t ≤ 1 := by
    rw [ht, div_le_one hnd]
    generalize r (sd x c - ρ) = k at *
    norm_num at *
    linarith
  set s : Fin n → ℝ := (divBy r (scale r (ptSub r x c) δ) (sd x c)).elem with hs
  have hse : len (s - t • (x.elem - c.elem)) ≤ 3 * 2 ^ (-52 : ℤ) * (t * eucl x.elem c.elem) := by
    have h1 : ∀ i, Close 53 3 (s i) ((t • (x.elem - c.elem)) i) := by
      intro i
      have k1 := Close.round_self pos53 r (x.elem i - c.elem i)
      have k2 := (k1.mul pos53 (Close.refl pos53 0 δ)).round pos53 r
      have k3 := (k2.div pos53 (Close.refl pos53 0 (sd x c))).round pos53 r
      have e : (t • (x.elem - c.elem)) i = (x.elem i - c.elem i) * δ / sd x c := by
        simp only [Pi.smul_apply, Pi.sub_apply, smul_eq_mul, ht]; ring
      rw [e]
      exact k3
    have h2 := len_mono (a := s - t • (x.elem - c.elem)) (b := t • (x.elem - c.elem)) (c := 3 * 2 ^ (-52 : ℤ)) (by positivity) fun i => by
      have := Close_err' (h1 i) (by norm_num)
      simpa using this
    rwa [len_smul, abs_of_nonneg ht0, ← eucl_eq_len x.elem] at h2
  have hη := len_round r (c.elem + s)
  have hce : (fun i => r ((c.elem + s) i)) = c'.elem := rfl
  rw [hce] at hη
  have hz : len (c.elem + t • (x.elem - c.elem)) ≤ max (len c.elem) M := by
    have e : c.elem + t • (x.elem - c.elem) = (1 - t) • c.elem + t • x.elem := by module
    rw [e]
    refine (len_add_le _ _).trans ?_
    rw [len_smul, len_smul, abs_of_nonneg ht0, abs_of_nonneg (by linarith)]
    have m1 := mul_le_mul_of_nonneg_left (le_max_left (len c.elem) M) (show 0 ≤ 1 - t by linarith)
    have m2 := mul_le_mul_of_nonneg_left (hx.trans (le_max_right (len c.elem) M)) ht0
    linarith
  have hmax : max (len c.elem) M ≤ 2 * M := max_le hc (by linarith)
  have hcs : len (c.elem + s) ≤ len (c.elem + t • (x.elem - c.elem)) + len (s - t • (x.elem - c.elem)) := by
    refine le_trans (le_of_eq ?_) (len_add_le _ _)
    congr 1; module
  have hcz : len (c'.elem - (c.elem + t • (x.elem - c.elem))) ≤ len (c'.elem - (c.elem + s)) + len (s - t • (x.elem - c.elem)) := by
    refine le_trans (le_of_eq ?_) (len_add_le _ _)
    congr 1; module
  -- distances in terms of `δ`
  have htD : t * eucl x.elem c.elem ≤ δ * (1 + 64 * 2 ^ (-53 : ℤ)) := by
    have := mul_le_mul_of_nonneg_left d1 ht0
    rw [← mul_assoc, htn] at this; exact this
  have htD1 : (1 - t) * eucl x.elem c.elem ≤ (sd x c - δ) * (1 + 64 * 2 ^ (-53 : ℤ)) := by
    have := mul_le_mul_of_nonneg_left d1 (show 0 ≤ 1 - t by linarith)
    rwa [← mul_assoc, sub_mul 1 t (sd x c), one_mul, htn] at this
  have htD0 : 0 ≤ t * eucl x.elem c.elem := mul_nonneg ht0 hD0
  have hcz' : len (c'.elem - (c.elem + t • (x.elem - c.elem))) ≤ 64 * 2 ^ (-53 : ℤ) * M := by
    replace hz := hz.trans hmax
    clear hmax
    generalize len (c'.elem - (c.elem + s)) = A1 at *
    generalize len (s - t • (x.elem - c.elem)) = A2 at *
    generalize len (c.elem + s) = A3 at *
    generalize len (c.elem + t • (x.elem - c.elem)) = A4 at *
    generalize t * eucl x.elem c.elem = A5 at *
    generalize r (sd x c - ρ) = k at *
    norm_num at *
    linarith
  have hshift : eucl c.elem (c.elem + t • (x.elem - c.elem)) = t * eucl x.elem c.elem := by
    rw [eucl_comm, eucl_eq_len, add_sub_cancel_left, len_smul, abs_of_nonneg ht0, eucl_eq_len]
  have hrest : eucl x.elem (c.elem + t • (x.elem - c.elem)) = (1 - t) * eucl x.elem c.elem := by
    rw [eucl_eq_len, show x.elem - (c.elem + t • (x.elem - c.elem)) = (1 - t) • (x.elem - c.elem) by module, len_smul, abs_of_nonneg (by linarith), eucl_eq_len]
  rw [← eucl_eq_len, eucl_comm] at hcz'
  refine ⟨hρ', ?_, ?_, fun y e hy => ?_, ?_⟩
  · generalize r (sd x c - ρ) = k at *
    norm_num at *
    linarith
  · have h1 := len_add_le (c'.elem - (c.elem + t • (x.elem - c.elem))) (c.elem + t • (x.elem - c.elem))
    rw [sub_add_cancel, ← eucl_eq_len, eucl_comm] at h1
    linarith
  · have h1 := eucl_triangle y c.elem (c.elem + t • (x.elem - c.elem))
    have h2 := eucl_triangle y (c.elem + t • (x.elem - c.elem)) c'.elem
    rw [hshift] at h1
    generalize eucl y (c.elem + t • (x.elem - c.elem)) = A1 at *
    generalize eucl y c'.elem = A2 at *
    generalize eucl (c.elem + t • (x.elem - c.elem)) c'.elem = A3 at *
    generalize t * eucl x.elem c.elem = A5 at *
    generalize r (sd x c - ρ) = k at *
    norm_num at *
    linarith
  · have h2 := eucl_triangle x.elem (c.elem + t • (x.elem - c.elem)) c'.elem
    rw [hrest] at h2
    generalize (1 - t) * eucl x.elem c.elem = A1 at *
    generalize eucl x.elem c'.elem = A2 at *
    generalize eucl (c.elem + t • (x.elem - c.elem)) c'.elem = A3 at *
    generalize r (sd x c - ρ) = k at *
    norm_num at *
    linarith

theorem grow_fl (r : Rounding 53) (check : Bool) {sd : Pt n → Pt n → ℝ} (hsd : SdOk sd) (skip : Nat → Bool) {M : ℝ} (hM : 0 ≤ M) (ps : List (Pt n × Nat))
    (hps : ∀ q ∈ ps, len q.1.elem ≤ M) (j : Nat) (hj : j + ps.length ≤ 2 ^ 40) (c : Pt n) (ρ : ℝ) (h0 : 0 ≤ ρ) (h7 : ρ ≤ 7 * M)
    (hc : len c.elem ≤ M + j * (64 * 2 ^ (-53 : ℤ) * M)) :
    (check = false → ∃ s, grow r check sd skip (c, ρ) ps = some s) ∧
    ∀ c' ρ', grow r check sd skip (c, ρ) ps = some (c', ρ') → 0 ≤ ρ' ∧
      (∀ (y : Fin n → ℝ) (e : ℝ), eucl y c.elem ≤ ρ + e → eucl y c'.elem ≤ ρ' + e + ps.length * (512 * 2 ^ (-53 : ℤ) * M)) ∧
      ∀ q ∈ ps, skip q.2 = false → eucl q.1.elem c'.elem ≤ ρ' + ps.length * (512 * 2 ^ (-53 : ℤ) * M) := by
  induction ps generalizing c ρ j with
  | nil =>
    refine ⟨fun _ => ⟨_, rfl⟩, fun c' ρ' h => ?_⟩
    obtain ⟨rfl, rfl⟩ := Prod.mk.inj (Option.some.inj h)
    exact ⟨h0, fun y e hy => by simpa using hy, by simp⟩
  | cons p ps ih =>
    have hlen : j + 1 + ps.length ≤ 2 ^ 40 := by simp only [List.length_cons] at hj; omega
    have hps' : ∀ q ∈ ps, len q.1.elem ≤ M := fun q hq => hps q (List.mem_cons_of_mem _ hq)
    have hpM := hps p List.mem_cons_self
    have hW : 0 ≤ 512 * (2 : ℝ) ^ (-53 : ℤ) * M := by positivity
    have hk : (((p :: ps).length : Nat) : ℝ) = ps.length + 1 := by push_cast [List.length_cons]; ring
    have hjr : (j : ℝ) ≤ 2 ^ 40 := by exact_mod_cast (by omega : j ≤ 2 ^ 40)
    have hc2 : len c.elem ≤ 2 * M := by
      refine hc.trans ?_
      have := mul_le_mul_of_nonneg_right hjr (show 0 ≤ 64 * (2 : ℝ) ^ (-53 : ℤ) * M by positivity)
      norm_num at *
      linarith
    have hcj : len c.elem ≤ M + ((j + 1 : Nat) : ℝ) * (64 * 2 ^ (-53 : ℤ) * M) := by
      have : 0 ≤ 64 * (2 : ℝ) ^ (-53 : ℤ) * M := by positivity
      push_cast; linarith
    have ih1 := ih hps' (j + 1) hlen c ρ h0 h7 hcj
    have near : ∀ c' ρ', (∀ (y : Fin n → ℝ) (e : ℝ), eucl y c.elem ≤ ρ + e → eucl y c'.elem ≤ ρ' + e + ps.length * (512 * 2 ^ (-53 : ℤ) * M)) →
        ∀ (y : Fin n → ℝ) (e : ℝ), eucl y c.elem ≤ ρ + e → eucl y (c' : Pt n).elem ≤ ρ' + e + (p :: ps).length * (512 * 2 ^ (-53 : ℤ) * M) := by
      intro c' ρ' h y e hy
      rw [hk]
      linarith [h y e hy]
    rw [grow]
    by_cases hs : skip p.2 = true
    · rw [if_pos hs]
      refine ⟨ih1.1, fun c' ρ' h => ?_⟩
      obtain ⟨k1, k2, k3⟩ := ih1.2 c' ρ' h
      refine ⟨k1, near c' ρ' k2, fun q hq hqs => ?_⟩
      rcases List.mem_cons.1 hq with rfl | hq
      · rw [hs] at hqs; exact absurd hqs (by simp)
      · rw [hk]; linarith [k3 q hq hqs]
    · rw [if_neg hs]
      dsimp only
      by_cases hgt : sd p.1 c > ρ
      · rw [if_pos hgt]
        obtain ⟨s1, s2, s3, s4, s5⟩ := grow_step r hsd c p.1 ρ h0 h7 hc2 hpM hgt
        generalize r (r (sd p.1 c - ρ) / 2) = δ at *
        generalize addVec r c (divBy r (scale r (ptSub r p.1 c) δ) (sd p.1 c)) = c1 at *
        generalize r (ρ + δ) = ρ1 at *
        have hc1 : len c1.elem ≤ M + ((j + 1 : Nat) : ℝ) * (64 * 2 ^ (-53 : ℤ) * M) := by
          have h1 : 0 ≤ 64 * (2 : ℝ) ^ (-53 : ℤ) * M := by positivity
          have h2 : max (len c.elem) M ≤ M + j * (64 * 2 ^ (-53 : ℤ) * M) := max_le hc (by have : 0 ≤ (j : ℝ) * (64 * 2 ^ (-53 : ℤ) * M) := by positivity
                                                                                           linarith)
          push_cast; linarith
        obtain ⟨i1, i2⟩ := ih hps' (j + 1) hlen c1 ρ1 s1 s2 hc1
        constructor
        · intro hf
          rw [if_pos (by rw [hf]; rfl)]
          exact i1 hf
        · intro c' ρ' h
          split_ifs at h
          obtain ⟨k1, k2, k3⟩ := i2 c' ρ' h
          refine ⟨k1, fun y e hy => ?_, fun q hq hqs => ?_⟩
          · rw [hk]
            have := k2 y (e + 512 * 2 ^ (-53 : ℤ) * M) (by linarith [s4 y e hy])
            linarith
          · rw [hk]
            rcases List.mem_cons.1 hq with rfl | hq
            · have := k2 _ (512 * 2 ^ (-53 : ℤ) * M) s5
              linarith
            · linarith [k3 q hq hqs]
      · rw [if_neg hgt]
        refine ⟨ih1.1, fun c' ρ' h => ?_⟩
        obtain ⟨k1, k2, k3⟩ := ih1.2 c' ρ' h
        refine ⟨k1, near c' ρ' k2, fun q hq hqs => ?_⟩
        rw [hk]
        rcases List.mem_cons.1 hq with rfl | hq
        · have hd := (hsd q.1 c).1
          have := k2 q.1.elem (512 * 2 ^ (-53 : ℤ) * M) (by
            have := not_lt.1 hgt
            norm_num at *
            linarith)
          linarith
        · linarith [k3 q hq hqs]

theorem widest_some (r : Rounding 53) (s : Ritter.Extremes n) (js : List (Fin n)) (span : ℝ) (d : Fin n) : ∃ d', widest r s js (span, some d) = some d' := by
  induction js generalizing span d with
  | nil => exact ⟨d, rfl⟩
  | cons j js ih =>
    rw [widest]
    split_ifs
    · exact ih _ _
    · exact ih _ _

theorem widest_exists (r : Rounding 53) (hn : 0 < n) (s : Ritter.Extremes n) (h : ∀ j, s.min j ≤ s.max j) :
    ∃ d, widest r s (List.finRange n) (-1, none) = some d := by
  obtain ⟨m, rfl⟩ : ∃ m, n = m + 1 := ⟨n - 1, by omega⟩
  rw [List.finRange_succ, widest]
  rw [if_pos (by have := r.nonneg (sub_nonneg.2 (h 0)); linarith)]
  exact widest_some r s _ _ _

/-- The ball computed from a list of points, for any sloppy distance that is accurate. -/
theorem sphere_spec (r : Rounding 53) (check : Bool) (hn : 0 < n) {sd : Pt n → Pt n → ℝ} (hsd : SdOk sd) (l : List (Pt n)) (hl : l ≠ []) (hk : l.length < 2 ^ 40)
    (hfl : ∀ p ∈ l, ∀ i, IsFl 53 (p.elem i)) (M : ℝ) (hM : ∀ p ∈ l, eucl p.elem 0 ≤ M) :
    (check = false → ∃ b, boundingSphereSloppy r check sd l = some b) ∧
    ∀ b, boundingSphereSloppy r check sd l = some b → 0 ≤ b.radius ∧ (∀ p ∈ l, eucl p.elem b.center.elem ≤ b.radius + (l.length + 1) * (2 ^ (-44 : ℤ) * M)) ∧
      (b.valid = true ↔ ∀ p ∈ l, p.valid = true) := by
  have hM' : ∀ p ∈ l, len p.elem ≤ M := fun p hp => by have := hM p hp; rwa [eucl_eq_len, sub_zero] at this
  have hM0 : 0 ≤ M := by
    obtain ⟨p, hp⟩ := List.exists_mem_of_ne_nil l hl
    exact (len_nonneg _).trans (hM' p hp)
  unfold boundingSphereSloppy
  have hz : l.zipIdx ≠ [] := by simpa using hl
  rcases hzl : l.zipIdx with _ | ⟨p, ps⟩
  · exact absurd hzl hz
  · simp only
    have hmin := Ritter.scan_le ps (Ritter.start p) (fun j => le_rfl)
    obtain ⟨d, hd⟩ := widest_exists r hn (Ritter.scan (Ritter.start p) ps) hmin
    have hm := Ritter.scan_mem ps (Ritter.start p) (p :: ps) (fun q hq => List.mem_cons_of_mem _ hq)
      (fun j => ⟨List.mem_cons_self, List.mem_cons_self⟩) d
    rw [hd]
    simp only
    have hin : ∀ q ∈ p :: ps, q.1 ∈ l := fun q hq => List.fst_mem_of_mem_zipIdx (hzl ▸ hq)
    generalize ha : (Ritter.scan (Ritter.start p) ps).minP d = a at *
    generalize hb : (Ritter.scan (Ritter.start p) ps).maxP d = b at *
    have al := hin a hm.1
    have bl := hin b hm.2
    have hmid := eucl_midpoint a.1 b.1
    have hme := Fl.mid_err r a.1 b.1 (hfl _ al) (hfl _ bl)
    have hmM : eucl (Pt.midpoint a.1 b.1 (1 / 2)).elem 0 ≤ M := by
      rw [eucl_eq_len, sub_zero]
      have e : (Pt.midpoint a.1 b.1 (1 / 2)).elem = (1 / 2 : ℝ) • a.1.elem + (1 / 2 : ℝ) • b.1.elem := by
        ext i; show a.1.elem i * (1 - 1 / 2) + b.1.elem i * (1 / 2) = _
        simp only [Pi.add_apply, Pi.smul_apply, smul_eq_mul]; ring
      rw [e]
      refine (len_add_le _ _).trans ?_
      rw [len_smul, len_smul, abs_of_pos (by norm_num)]
      linarith [hM' _ al, hM' _ bl]
    generalize Pt.midpoint a.1 b.1 (1 / 2) = m at *
    generalize Fl.midpoint r a.1 b.1 (1 / 2) = c at *
    have hcM : len c.elem ≤ M + ((1 : Nat) : ℝ) * (64 * 2 ^ (-53 : ℤ) * M) := by
      have h1 := eucl_triangle c.elem m.elem 0
      rw [eucl_eq_len c.elem 0, sub_zero] at h1
      norm_num at *
      linarith
    obtain ⟨u1, u2⟩ := hsd a.1 c
    have hac : eucl a.1.elem c.elem ≤ len a.1.elem + len c.elem := by rw [eucl_eq_len]; exact len_sub_le _ _
    have haM := hM' _ al
    have hd0 : 0 ≤ sd a.1 c := by
      have := eucl_nonneg a.1.elem c.elem
      have h2 : (0 : ℝ) < 1 + 64 * 2 ^ (-53 : ℤ) := by positivity
      by_contra hneg
      have := mul_neg_of_neg_of_pos (not_le.1 hneg) h2
      linarith
    have hd7 : sd a.1 c ≤ 7 * M := by norm_num at *; linarith
    have hlen : (p :: ps).length = l.length := by rw [← hzl, List.length_zipIdx]
    obtain ⟨g1, g2⟩ := grow_fl r check hsd (fun i => i == a.2 || i == b.2) hM0 (p :: ps) (fun q hq => hM' _ (hin q hq)) 1 (by rw [hlen]; omega) c
      (sd a.1 c) hd0 hd7 hcM
    constructor
    · intro hf
      obtain ⟨s, hs⟩ := g1 hf
      rw [hs]; exact ⟨_, rfl⟩
    intro B hB
    rcases hg : grow r check sd (fun i => i == a.2 || i == b.2) (c, sd a.1 c) (p :: ps) with _ | ⟨c', ρ'⟩
    · rw [hg] at hB; exact absurd hB (by simp)
    rw [hg] at hB
    obtain rfl := Option.some.inj hB
    obtain ⟨k1, k2, k3⟩ := g2 c' ρ' hg
    have hval : Ball.mk' (⟨c'.elem, (Ritter.scan (Ritter.start p) ps).valid⟩ : Pt n) ρ' = ⟨⟨c'.elem, (Ritter.scan (Ritter.start p) ps).valid⟩, ρ'⟩ := by
      unfold Ball.mk'; rw [if_neg (not_lt.2 k1)]
    rw [hval]
    have hW : 512 * (2 : ℝ) ^ (-53 : ℤ) * M = 2 ^ (-44 : ℤ) * M := by norm_num
    rw [hlen, hW] at k2 k3
    have hW0 : 0 ≤ (2 : ℝ) ^ (-44 : ℤ) * M := by positivity
    have ha1 : eucl a.1.elem c.elem ≤ sd a.1 c + 2 ^ (-44 : ℤ) * M := by norm_num at *; linarith
    have hb1 : eucl b.1.elem c.elem ≤ sd a.1 c + 2 ^ (-44 : ℤ) * M := by
      have h1 := eucl_triangle b.1.elem m.elem c.elem
      have h2 := eucl_triangle a.1.elem c.elem m.elem
      rw [eucl_comm m.elem c.elem] at h1
      rw [hmid.2, ← hmid.1] at h1
      norm_num at *
      linarith
    refine ⟨k1, fun q hq => ?_, ?_⟩
    · show eucl q.elem c'.elem ≤ ρ' + _
      obtain ⟨i, hi, rfl⟩ := List.mem_iff_getElem.1 hq
      have hqi : (l[i], i) ∈ l.zipIdx := List.mem_zipIdx_iff_getElem?.2 (List.getElem?_eq_getElem hi)
      by_cases hs : (i == a.2 || i == b.2) = true
      · simp only [Bool.or_eq_true, beq_iff_eq] at hs
        rcases hs with hs | hs
        · have := Ritter.mem_zipIdx_unique hqi (hzl ▸ hm.1) hs
          have e : l[i] = a.1 := congrArg Prod.fst this
          rw [e]; linarith [k2 _ _ ha1]
        · have := Ritter.mem_zipIdx_unique hqi (hzl ▸ hm.2) hs
          have e : l[i] = b.1 := congrArg Prod.fst this
          rw [e]; linarith [k2 _ _ hb1]
      · have := k3 (l[i], i) (hzl ▸ hqi) (by simpa using hs)
        linarith
    · show (Ritter.scan (Ritter.start p) ps).valid = true ↔ _
      rw [Ritter.scan_valid]
      have : (∀ q ∈ l, q.valid = true) ↔ ∀ q ∈ p :: ps, q.1.valid = true := by
        rw [← hzl]
        constructor
        · intro h q hq; exact h q.1 (List.fst_mem_of_mem_zipIdx hq)
        · intro h q hq
          obtain ⟨i, hi, rfl⟩ := List.mem_iff_getElem.1 hq
          exact h (l[i], i) (List.mem_zipIdx_iff_getElem?.2 (List.getElem?_eq_getElem hi))
      rw [this]
      simp [Ritter.start]

/-- The bounding sphere of a box or a segment, for any sloppy distance that is accurate. -/
theorem sphereSloppy_spec (r : Rounding 53) {sd : Pt n → Pt n → ℝ} (hsd : SdOk sd) (p q : Pt n) (hp : ∀ i, IsFl 53 (p.elem i)) (hq : ∀ i, IsFl 53 (q.elem i)) (M : ℝ)
    (hpM : eucl p.elem 0 ≤ M) (hqM : eucl q.elem 0 ≤ M) :
    0 ≤ (sphereSloppy r sd p q).radius ∧ ((sphereSloppy r sd p q).valid = (p.valid && q.valid)) ∧
    ∀ x : Fin n → ℝ, eucl x (Pt.midpoint p q (1 / 2)).elem ≤ eucl p.elem q.elem / 2 →
      eucl x (sphereSloppy r sd p q).center.elem ≤ (sphereSloppy r sd p q).radius + 2 ^ (-44 : ℤ) * M := by
  obtain ⟨u1, u2⟩ := hsd p q
  have hE := eucl_nonneg p.elem q.elem
  have hEM : eucl p.elem q.elem ≤ M + M := by
    have := eucl_triangle p.elem 0 q.elem
    rw [eucl_comm 0 q.elem] at this
    linarith
  have hme := Fl.mid_err r p q hp hq
  have hmM : eucl (Pt.midpoint p q (1 / 2)).elem 0 ≤ M := by
    rw [eucl_eq_len, sub_zero] at hpM hqM ⊢
    have e : (Pt.midpoint p q (1 / 2)).elem = (1 / 2 : ℝ) • p.elem + (1 / 2 : ℝ) • q.elem := by
      ext i; show p.elem i * (1 - 1 / 2) + q.elem i * (1 / 2) = _
      simp only [Pi.add_apply, Pi.smul_apply, smul_eq_mul]; ring
    rw [e]
    refine (len_add_le _ _).trans ?_
    rw [len_smul, len_smul, abs_of_pos (by norm_num)]
    linarith
  have hd0 : 0 ≤ sd p q := by
    have h2 : (0 : ℝ) < 1 + 64 * 2 ^ (-53 : ℤ) := by positivity
    by_contra hneg
    have := mul_neg_of_neg_of_pos (not_le.1 hneg) h2
    linarith
  have hr0 : 0 ≤ r (sd p q / 2) := r.nonneg (by linarith)
  have hre := r.err pos53 (sd p q / 2)
  rw [u53, abs_of_nonneg (show 0 ≤ sd p q / 2 by linarith)] at hre
  have hval : sphereSloppy r sd p q = ⟨midpoint r p q (1 / 2), r (sd p q / 2)⟩ := by
    unfold sphereSloppy Ball.mk'; rw [if_neg (not_lt.2 hr0)]
  rw [hval]
  refine ⟨hr0, rfl, fun x hx => ?_⟩
  show eucl x (midpoint r p q (1 / 2)).elem ≤ r (sd p q / 2) + _
  have h1 := eucl_triangle x (Pt.midpoint p q (1 / 2)).elem (midpoint r p q (1 / 2)).elem
  rw [eucl_comm (Pt.midpoint p q (1 / 2)).elem (midpoint r p q (1 / 2)).elem] at h1
  have h3 := (abs_le.1 hre).1
  generalize eucl (midpoint r p q (1 / 2)).elem (Pt.midpoint p q (1 / 2)).elem = A at *
  generalize eucl x (midpoint r p q (1 / 2)).elem = X at *
  generalize r (sd p q / 2) = R at *
  norm_num at *
  linarith

end Fl

/-- C129: the sloppy length computed in doubles is not below the length, and not above it by more than the factor of exact arithmetic, up to 40 units in the last place. -/
theorem C129_length (r : Rounding 53) (v : Vec 2) (w : Vec 3) :
    (v.mag * (1 - 40 * 2 ^ (-53 : ℤ)) ≤ Fl.sloppyMag2 r v ∧ Fl.sloppyMag2 r v ≤ (1.0823923 + 40 * 2 ^ (-53 : ℤ)) * v.mag) ∧
    w.mag * (1 - 40 * 2 ^ (-53 : ℤ)) ≤ Fl.sloppyMag3 r w ∧ Fl.sloppyMag3 r w ≤ (1.14593472 + 40 * 2 ^ (-53 : ℤ)) * w.mag := by
  have h1 := C19_dim2 v
  have h2 := C19_dim3_partial w
  have e1 := abs_le.1 (Fl.sloppyMag2_err r v)
  have e2 := abs_le.1 (Fl.sloppyMag3_err r w)
  have v0 : 0 ≤ v.mag := Real.sqrt_nonneg _
  have w0 : 0 ≤ w.mag := Real.sqrt_nonneg _
  simp only [Vec.sloppyMagMax] at h1
  generalize v.mag = a at *
  generalize w.mag = b at *
  generalize v.sloppyMag2 = c at *
  generalize w.sloppyMag3 = d at *
  norm_num at *
  refine ⟨⟨?_, ?_⟩, ?_, ?_⟩ <;> linarith

/-- C129, `BoundingSphereSloppy` in two dimensions, for points whose coordinates are doubles and that lie within `M` of the origin: without assertions it gives a ball;
whenever it gives a ball, with or without assertions, every point lies in the ball with its radius enlarged by `(k + 1) M / 2^44` for `k` points, and the ball is valid
exactly when all points are. -/
theorem C129_dim2_partial (r : Rounding 53) (check : Bool) (l : List (Pt 2)) (hl : l ≠ []) (hk : l.length < 2 ^ 40) (hfl : ∀ p ∈ l, ∀ i, IsFl 53 (p.elem i)) (M : ℝ)
    (hM : ∀ p ∈ l, eucl p.elem 0 ≤ M) :
    (check = false → ∃ b, Fl.boundingSphereSloppy2 r check l = some b) ∧
    ∀ b, Fl.boundingSphereSloppy2 r check l = some b → 0 ≤ b.radius ∧
      (∀ p ∈ l, eucl p.elem b.center.elem ≤ b.radius + (l.length + 1) * (2 ^ (-44 : ℤ) * M)) ∧ (b.valid = true ↔ ∀ p ∈ l, p.valid = true) :=
  Fl.sphere_spec r check (by norm_num) (Fl.sdOk2 r) l hl hk hfl M hM

/-- C129, `BoundingSphereSloppy` in three dimensions. -/
theorem C129_dim3_partial (r : Rounding 53) (check : Bool) (l : List (Pt 3)) (hl : l ≠ []) (hk : l.length < 2 ^ 40) (hfl : ∀ p ∈ l, ∀ i, IsFl 53 (p.elem i)) (M : ℝ)
    (hM : ∀ p ∈ l, eucl p.elem 0 ≤ M) :
    (check = false → ∃ b, Fl.boundingSphereSloppy3 r check l = some b) ∧
    ∀ b, Fl.boundingSphereSloppy3 r check l = some b → 0 ≤ b.radius ∧
      (∀ p ∈ l, eucl p.elem b.center.elem ≤ b.radius + (l.length + 1) * (2 ^ (-44 : ℤ) * M)) ∧ (b.valid = true ↔ ∀ p ∈ l, p.valid = true) :=
  Fl.sphere_spec r check (by norm_num) (Fl.sdOk3 r) l hl hk hfl M hM

theorem radius_le (r : Rounding 53) {sd : Pt n → Pt n → ℝ} (p q : Pt n) {k : ℝ} (h0 : 0 ≤ sd p q) (h : sd p q ≤ k * (Fl.ptSub r p q).mag) (hk : 1 ≤ k) (hk2 : k ≤ 2) :
    (Fl.sphereSloppy r sd p q).radius ≤ (k / 2 + 2 ^ (-50 : ℤ)) * eucl p.elem q.elem := by
  have h1 := (abs_le.1 (Fl.ptSub_len r p q)).2
  have hE := eucl_nonneg p.elem q.elem
  have hr0 : 0 ≤ r (sd p q / 2) := r.nonneg (by linarith)
  have hre := r.err Fl.pos53 (sd p q / 2)
  rw [Fl.u53, abs_of_nonneg (show 0 ≤ sd p q / 2 by linarith)] at hre
  have h3 := (abs_le.1 hre).2
  have hval : Fl.sphereSloppy r sd p q = ⟨Fl.midpoint r p q (1 / 2), r (sd p q / 2)⟩ := by
    unfold Fl.sphereSloppy Ball.mk'; rw [if_neg (not_lt.2 hr0)]
  rw [hval]
  show r (sd p q / 2) ≤ _
  have h5 : k * (Fl.ptSub r p q).mag ≤ k * ((1 + 2 ^ (-53 : ℤ)) * eucl p.elem q.elem) := mul_le_mul_of_nonneg_left (by linarith) (by linarith)
  have h6 : k * eucl p.elem q.elem ≤ 2 * eucl p.elem q.elem := mul_le_mul_of_nonneg_right hk2 hE
  rw [show k * ((1 + 2 ^ (-53 : ℤ)) * eucl p.elem q.elem) = (1 + 2 ^ (-53 : ℤ)) * (k * eucl p.elem q.elem) by ring] at h5
  rw [show (k / 2 + 2 ^ (-50 : ℤ)) * eucl p.elem q.elem = k * eucl p.elem q.elem / 2 + 2 ^ (-50 : ℤ) * eucl p.elem q.elem by ring]
  generalize k * eucl p.elem q.elem = K at *
  generalize k * (Fl.ptSub r p q).mag = K' at *
  norm_num at *
  linarith

theorem radius2_le (r : Rounding 53) (p q : Pt 2) : (Fl.sphereSloppy r (Fl.sloppyDist2 r) p q).radius ≤ 0.55 * eucl p.elem q.elem := by
  have h := (C129_length r (Fl.ptSub r p q) ⟨0, true⟩).1
  have hE := eucl_nonneg p.elem q.elem
  have hm : 0 ≤ (Fl.ptSub r p q).mag := Real.sqrt_nonneg _
  refine (radius_le r (sd := Fl.sloppyDist2 r) p q (k := 1.09) (le_trans (mul_nonneg hm (by norm_num)) h.1) (h.2.trans (mul_le_mul_of_nonneg_right (by norm_num) hm)) (by norm_num) (by norm_num)).trans ?_
  exact mul_le_mul_of_nonneg_right (by norm_num) hE

theorem radius3_le (r : Rounding 53) (p q : Pt 3) : (Fl.sphereSloppy r (Fl.sloppyDist3 r) p q).radius ≤ 0.58 * eucl p.elem q.elem := by
  have h := (C129_length r ⟨0, true⟩ (Fl.ptSub r p q)).2
  have hE := eucl_nonneg p.elem q.elem
  have hm : 0 ≤ (Fl.ptSub r p q).mag := Real.sqrt_nonneg _
  refine (radius_le r (sd := Fl.sloppyDist3 r) p q (k := 1.15) (le_trans (mul_nonneg hm (by norm_num)) h.1) (h.2.trans (mul_le_mul_of_nonneg_right (by norm_num) hm)) (by norm_num) (by norm_num)).trans ?_
  exact mul_le_mul_of_nonneg_right (by norm_num) hE

/-- C129, `boundingSphereSloppy()` of a box: every point of the box is within the radius of the centre, up to `2^-44` times the size of the coordinates. -/
theorem C129_box (r : Rounding 53) (a : Box 2) (b : Box 3) (ha1 : ∀ i, IsFl 53 (a.low.elem i)) (ha2 : ∀ i, IsFl 53 (a.high.elem i))
    (hb1 : ∀ i, IsFl 53 (b.low.elem i)) (hb2 : ∀ i, IsFl 53 (b.high.elem i)) (M : ℝ) (hM : eucl a.low.elem 0 ≤ M ∧ eucl a.high.elem 0 ≤ M)
    (hM' : eucl b.low.elem 0 ≤ M ∧ eucl b.high.elem 0 ≤ M) :
    (∀ x ∈ boxSet a, eucl x (Fl.sphereSloppy r (Fl.sloppyDist2 r) a.low a.high).center.elem ≤
      (Fl.sphereSloppy r (Fl.sloppyDist2 r) a.low a.high).radius + 2 ^ (-44 : ℤ) * M) ∧
    (∀ x ∈ boxSet b, eucl x (Fl.sphereSloppy r (Fl.sloppyDist3 r) b.low b.high).center.elem ≤
      (Fl.sphereSloppy r (Fl.sloppyDist3 r) b.low b.high).radius + 2 ^ (-44 : ℤ) * M) ∧
    (Fl.sphereSloppy r (Fl.sloppyDist2 r) a.low a.high).radius ≤ 0.55 * eucl a.low.elem a.high.elem ∧
    (Fl.sphereSloppy r (Fl.sloppyDist3 r) b.low b.high).radius ≤ 0.58 * eucl b.low.elem b.high.elem ∧
    (Fl.sphereSloppy r (Fl.sloppyDist2 r) a.low a.high).valid = a.valid ∧ (Fl.sphereSloppy r (Fl.sloppyDist3 r) b.low b.high).valid = b.valid := by
  have h2 := Fl.sphereSloppy_spec r (Fl.sdOk2 r) a.low a.high ha1 ha2 M hM.1 hM.2
  have h3 := Fl.sphereSloppy_spec r (Fl.sdOk3 r) b.low b.high hb1 hb2 M hM'.1 hM'.2
  exact ⟨fun x hx => h2.2.2 x (box_center_dist a hx), fun x hx => h3.2.2 x (box_center_dist b hx), radius2_le r _ _, radius3_le r _ _, h2.2.1, h3.2.1⟩

/-- C129, `boundingSphereSloppy()` of a segment. -/
theorem C129_segment (r : Rounding 53) (s : Seg 2) (t : Seg 3) (hs1 : ∀ i, IsFl 53 (s.p1.elem i)) (hs2 : ∀ i, IsFl 53 (s.p2.elem i))
    (ht1 : ∀ i, IsFl 53 (t.p1.elem i)) (ht2 : ∀ i, IsFl 53 (t.p2.elem i)) (M : ℝ) (hM : eucl s.p1.elem 0 ≤ M ∧ eucl s.p2.elem 0 ≤ M)
    (hM' : eucl t.p1.elem 0 ≤ M ∧ eucl t.p2.elem 0 ≤ M) :
    (∀ x ∈ segSet s, eucl x (Fl.sphereSloppy r (Fl.sloppyDist2 r) s.p1 s.p2).center.elem ≤
      (Fl.sphereSloppy r (Fl.sloppyDist2 r) s.p1 s.p2).radius + 2 ^ (-44 : ℤ) * M) ∧
    (∀ x ∈ segSet t, eucl x (Fl.sphereSloppy r (Fl.sloppyDist3 r) t.p1 t.p2).center.elem ≤
      (Fl.sphereSloppy r (Fl.sloppyDist3 r) t.p1 t.p2).radius + 2 ^ (-44 : ℤ) * M) ∧
    (Fl.sphereSloppy r (Fl.sloppyDist2 r) s.p1 s.p2).radius ≤ 0.55 * eucl s.p1.elem s.p2.elem ∧
    (Fl.sphereSloppy r (Fl.sloppyDist3 r) t.p1 t.p2).radius ≤ 0.58 * eucl t.p1.elem t.p2.elem ∧
    (Fl.sphereSloppy r (Fl.sloppyDist2 r) s.p1 s.p2).valid = s.valid ∧ (Fl.sphereSloppy r (Fl.sloppyDist3 r) t.p1 t.p2).valid = t.valid := by
  have h2 := Fl.sphereSloppy_spec r (Fl.sdOk2 r) s.p1 s.p2 hs1 hs2 M hM.1 hM.2
  have h3 := Fl.sphereSloppy_spec r (Fl.sdOk3 r) t.p1 t.p2 ht1 ht2 M hM'.1 hM'.2
  exact ⟨fun x hx => h2.2.2 x (seg_center_dist s hx), fun x hx => h3.2.2 x (seg_center_dist t hx), radius2_le r _ _, radius3_le r _ _, h2.2.1, h3.2.1⟩

/-- The points of `C129_false`: `(7/8 + 2^-53, 0)` and `(9/8, 0)`. -/
noncomputable def rowA : Pt 2 := ⟨![7881299347898369 / 9007199254740992, 0], true⟩
noncomputable def rowB : Pt 2 := ⟨![9 / 8, 0], true⟩

theorem row_fl : (∀ i, IsFl 53 (rowA.elem i)) ∧ ∀ i, IsFl 53 (rowB.elem i) := by
  have hA : IsFl 53 (7881299347898369 / 9007199254740992 : ℝ) := ⟨7881299347898369, -53, by norm_num, by norm_num⟩
  have hB : IsFl 53 (9 / 8 : ℝ) := ⟨9, -3, by norm_num, by norm_num⟩
  constructor <;> intro i <;> fin_cases i
  · exact hA
  · exact IsFl.zero
  · exact hB
  · exact IsFl.zero

/-- The middle of the points, `1 + 2^-54`, is not a double: it is rounded to 1. -/
theorem row_mid (r : Rounding 53) : r (18014398509481985 / 18014398509481984 : ℝ) = 1 := by
  have := r.eq_of_near Fl.pos53 (x := 18014398509481985 / 18014398509481984) (e := 0) (k := 4503599627370496) (by norm_num) (by norm_num) (by norm_num [abs_of_pos])
  rw [this]; norm_num

/-- C129 in full is false of the code: three points whose coordinates are doubles of ordinary size, two of them equal, for which `BoundingSphereSloppy` fails its own assertion in a
program compiled with assertions, whatever is done with ties. In exact arithmetic the assertion holds for all points (`C57_dim2`). -/
theorem C129_false : (∀ p ∈ [rowA, rowB, rowB], p.valid = true ∧ (∀ i, IsFl 53 (p.elem i)) ∧ eucl p.elem 0 ≤ 2) ∧
    ∀ r : Rounding 53, Fl.boundingSphereSloppy2 r true [rowA, rowB, rowB] = none := by
  refine ⟨fun p hp => ?_, fun r => ?_⟩
  · simp only [List.mem_cons, List.not_mem_nil, or_false, or_self] at hp
    rcases hp with rfl | rfl
    · exact ⟨rfl, row_fl.1, by rw [eucl_le_iff (by norm_num)]; simp [rowA, Fin.sum_univ_two]; norm_num⟩
    · exact ⟨rfl, row_fl.2, by rw [eucl_le_iff (by norm_num)]; simp [rowB, Fin.sum_univ_two]; norm_num⟩
  have nA : r (1125899906842623 / 9007199254740992 : ℝ) = 1125899906842623 / 9007199254740992 := r.of_fl ⟨1125899906842623, -53, by norm_num, by norm_num⟩
  have nB : r (1 / 8 : ℝ) = 1 / 8 := r.of_fl ⟨1, -3, by norm_num, by norm_num⟩
  have nS : r (2251799813685247 / 9007199254740992 : ℝ) = 2251799813685247 / 9007199254740992 := r.of_fl ⟨2251799813685247, -53, by norm_num, by norm_num⟩
  have nD : r (1 / 9007199254740992 : ℝ) = 1 / 9007199254740992 := r.of_fl ⟨1, -53, by norm_num, by norm_num⟩
  have nD2 : r (1 / 18014398509481984 : ℝ) = 1 / 18014398509481984 := r.of_fl ⟨1, -54, by norm_num, by norm_num⟩
  have nE : r (1 / 144115188075855872 : ℝ) = 1 / 144115188075855872 := r.of_fl ⟨1, -57, by norm_num, by norm_num⟩
  have nR : r (2251799813685247 / 18014398509481984 : ℝ) = 2251799813685247 / 18014398509481984 := r.of_fl ⟨2251799813685247, -54, by norm_num, by norm_num⟩
  have nR2 : r (2251799813685247 / 18014398509481984 * (2251799813685247 / 18014398509481984) : ℝ) ≤ 2251799813685247 / 144115188075855872 :=
    r.le_fl ⟨2251799813685247, -57, by norm_num, by norm_num⟩ (by norm_num)
  have nQ : r (1 / 64 : ℝ) = 1 / 64 := r.of_fl ⟨1, -6, by norm_num, by norm_num⟩
  have hmid := row_mid r
  have hc : Fl.midpoint r rowA rowB (1 / 2) = ⟨![1, 0], true⟩ := by
    have h := (C120_midpoint r rowA rowB row_fl.1 row_fl.2).1
    have e : (Fl.midpoint r rowA rowB (1 / 2)).elem = ![1, 0] := by
      funext i
      rw [h i]
      fin_cases i
      · show r ((7881299347898369 / 9007199254740992 + 9 / 8) / 2) = 1
        rw [show ((7881299347898369 / 9007199254740992 : ℝ) + 9 / 8) / 2 = 18014398509481985 / 18014398509481984 by norm_num, hmid]
      · show r ((0 + 0) / 2) = 0
        rw [add_zero, zero_div, r.zero]
    exact Pt.ext e rfl
  have hsA : Fl.sloppyDist2 r rowA ⟨![1, 0], true⟩ = 1125899906842623 / 9007199254740992 := by
    have e0 : (Fl.ptSub r rowA ⟨![1, 0], true⟩).elem 0 = -(1125899906842623 / 9007199254740992) := by
      show r (7881299347898369 / 9007199254740992 - 1) = _
      rw [show (7881299347898369 / 9007199254740992 : ℝ) - 1 = -(1125899906842623 / 9007199254740992) by norm_num, r.odd, nA]
    have e1 : (Fl.ptSub r rowA ⟨![1, 0], true⟩).elem 1 = 0 := by
      show r (0 - 0) = 0
      rw [sub_zero, r.zero]
    unfold Fl.sloppyDist2 Fl.sloppyMag2
    dsimp only
    rw [e0, e1, if_pos (by norm_num), abs_zero, mul_zero, r.zero, add_zero, abs_neg, abs_of_pos (by norm_num), nA]
  have hvB : (Fl.ptSub r rowB ⟨![1, 0], true⟩).elem = ![1 / 8, 0] := by
    funext i
    fin_cases i
    · show r (9 / 8 - 1) = 1 / 8
      rw [show (9 / 8 : ℝ) - 1 = 1 / 8 by norm_num, nB]
    · show r (0 - 0) = 0
      rw [sub_zero, r.zero]
  have hsB : Fl.sloppyDist2 r rowB ⟨![1, 0], true⟩ = 1 / 8 := by
    unfold Fl.sloppyDist2 Fl.sloppyMag2
    dsimp only
    have e0 : (Fl.ptSub r rowB ⟨![1, 0], true⟩).elem 0 = 1 / 8 := congrFun hvB 0
    have e1 : (Fl.ptSub r rowB ⟨![1, 0], true⟩).elem 1 = 0 := congrFun hvB 1
    rw [e0, e1, if_pos (by norm_num), abs_zero, mul_zero, r.zero, add_zero, abs_of_pos (by norm_num), nB]
  have hc' : Fl.addVec r ⟨![1, 0], true⟩ (Fl.divBy r (Fl.scale r (Fl.ptSub r rowB ⟨![1, 0], true⟩) (1 / 18014398509481984)) (1 / 8)) = ⟨![1, 0], true⟩ := by
    have e : (Fl.addVec r ⟨![1, 0], true⟩ (Fl.divBy r (Fl.scale r (Fl.ptSub r rowB ⟨![1, 0], true⟩) (1 / 18014398509481984)) (1 / 8))).elem = ![1, 0] := by
      funext i
      show r ((![1, 0] : Fin 2 → ℝ) i + r (r ((Fl.ptSub r rowB ⟨![1, 0], true⟩).elem i * (1 / 18014398509481984)) / (1 / 8))) = _
      rw [hvB]
      fin_cases i
      · show r (1 + r (r (1 / 8 * (1 / 18014398509481984)) / (1 / 8))) = 1
        rw [show (1 / 8 : ℝ) * (1 / 18014398509481984) = 1 / 144115188075855872 by norm_num, nE,
          show (1 / 144115188075855872 : ℝ) / (1 / 8) = 1 / 18014398509481984 by norm_num, nD2,
          show (1 : ℝ) + 1 / 18014398509481984 = 18014398509481985 / 18014398509481984 by norm_num, hmid]
      · show r (0 + r (r (0 * (1 / 18014398509481984)) / (1 / 8))) = 0
        rw [zero_mul, r.zero, zero_div, r.zero, add_zero, r.zero]
    exact Pt.ext e rfl
  have hsq : Fl.sqDist r rowB ⟨![1, 0], true⟩ = 1 / 64 := by
    have e : (Fl.sum r fun i => r (r (rowB.elem i - (![1, 0] : Fin 2 → ℝ) i) * r (rowB.elem i - (![1, 0] : Fin 2 → ℝ) i))) = 1 / 64 := by
      have h0 : r (rowB.elem 0 - (![1, 0] : Fin 2 → ℝ) 0) = 1 / 8 := congrFun hvB 0
      have h1 : r (rowB.elem 1 - (![1, 0] : Fin 2 → ℝ) 1) = 0 := congrFun hvB 1
      show r (r (0 + r (r (rowB.elem 0 - (![1, 0] : Fin 2 → ℝ) 0) * r (rowB.elem 0 - (![1, 0] : Fin 2 → ℝ) 0))) +
        r (r (rowB.elem 1 - (![1, 0] : Fin 2 → ℝ) 1) * r (rowB.elem 1 - (![1, 0] : Fin 2 → ℝ) 1))) = 1 / 64
      rw [h0, h1, show (1 / 8 : ℝ) * (1 / 8) = 1 / 64 by norm_num, nQ, zero_add, nQ, zero_mul, r.zero, add_zero, nQ]
    unfold Fl.sqDist
    dsimp only
    rw [e, if_pos]
    have h1 : rowB.elem ≠ 0 := fun h => by have := congrFun h 0; simp [rowB] at this
    have h2 : (![1, 0] : Fin 2 → ℝ) ≠ 0 := fun h => by have := congrFun h 0; simp at this
    have h3 := scaleEpsilonArr_le (e := epsilon) epsilon_pos.le h1 h2
    have h4 : maxAbs (![1, 0] : Fin 2 → ℝ) ≤ 1 := maxAbs_le (by norm_num) fun i => by fin_cases i <;> norm_num
    have h5 := mul_le_mul_of_nonneg_left ((min_le_right (maxAbs rowB.elem) _).trans h4) (show 0 ≤ 2 * epsilon by have := epsilon_pos; linarith)
    have h6 : 2 * epsilon * 1 ≤ |(1 / 64 : ℝ)| := by unfold epsilon; norm_num
    exact (h3.trans h5).trans h6
  have hscan : ∃ s : Ritter.Extremes 2, Ritter.scan (Ritter.start (rowA, 0)) [(rowB, 1), (rowB, 2)] = s ∧ s.minP 0 = (rowA, 0) ∧ s.maxP 0 = (rowB, 1) ∧
      s.max 0 - s.min 0 = 2251799813685247 / 9007199254740992 ∧ s.max 1 - s.min 1 = 0 := by
    refine ⟨_, rfl, ?_, ?_, ?_, ?_⟩ <;> simp [Ritter.scan, Ritter.start, rowA, rowB] <;> norm_num
  obtain ⟨s, hs, hmin, hmax, hs0, hs1⟩ := hscan
  have hw : Fl.widest r s (List.finRange 2) (-1, none) = some 0 := by
    show Fl.widest r s [0, 1] (-1, none) = some 0
    rw [Fl.widest, hs0, nS, if_pos (by norm_num), Fl.widest, hs1, r.zero, if_neg (by norm_num), Fl.widest]
  unfold Fl.boundingSphereSloppy2 Fl.boundingSphereSloppy
  rw [show [rowA, rowB, rowB].zipIdx = [(rowA, 0), (rowB, 1), (rowB, 2)] from rfl]
  dsimp only
  rw [hs, hw]
  dsimp only
  rw [hmin, hmax]
  dsimp only
  rw [hc, hsA, Fl.grow, if_pos (by rfl), Fl.grow, if_pos (by rfl), Fl.grow, if_neg (by simp)]
  dsimp only
  rw [hsB, if_pos (by norm_num), show (1 / 8 : ℝ) - 1125899906842623 / 9007199254740992 = 1 / 9007199254740992 by norm_num, nD,
    show (1 / 9007199254740992 : ℝ) / 2 = 1 / 18014398509481984 by norm_num, nD2, hc', hsq,
    show (1125899906842623 / 9007199254740992 : ℝ) + 1 / 18014398509481984 = 2251799813685247 / 18014398509481984 by norm_num, nR, if_neg]
  simp only [Bool.not_true, Bool.false_or, decide_eq_true_eq, not_le]
  refine nR2.trans_lt ?_
  norm_num

/-- The hypotheses of the theorems are met by the points of `C129_false`; without assertions the ball contains them up to `2^-41`. -/
example (r : Rounding 53) : ∃ b, Fl.boundingSphereSloppy2 r false [rowA, rowB, rowB] = some b ∧ b.valid = true ∧
    ∀ p ∈ [rowA, rowB, rowB], eucl p.elem b.center.elem ≤ b.radius + 2 ^ (-41 : ℤ) := by
  have h := C129_false.1
  obtain ⟨h1, h2⟩ := C129_dim2_partial r false [rowA, rowB, rowB] (by simp) (by simp) (fun p hp => (h p hp).2.1) 2 fun p hp => (h p hp).2.2
  obtain ⟨b, hb⟩ := h1 rfl
  obtain ⟨-, h3, h4⟩ := h2 b hb
  refine ⟨b, hb, h4.2 fun p hp => (h p hp).1, fun p hp => (h3 p hp).trans ?_⟩
  simp only [List.length_cons, List.length_nil]
  norm_num

/-- The hypotheses of `C129_box` and `C129_segment` are met by a box and a segment between these points, and by the unit cube. -/
example (r : Rounding 53) : ∀ x ∈ boxSet (⟨rowA, rowB⟩ : Box 2), eucl x (Fl.sphereSloppy r (Fl.sloppyDist2 r) rowA rowB).center.elem ≤
    (Fl.sphereSloppy r (Fl.sloppyDist2 r) rowA rowB).radius + 2 ^ (-44 : ℤ) * 2 := by
  have h := C129_false.1
  have hA := h rowA (by simp)
  have hB := h rowB (by simp)
  have f0 : ∀ i, IsFl 53 ((⟨fun _ => 0, true⟩ : Pt 3).elem i) := fun i => IsFl.zero
  have f1 : ∀ i, IsFl 53 ((⟨fun _ => 1, true⟩ : Pt 3).elem i) := fun i => ⟨1, 0, by norm_num, by norm_num⟩
  have c0 : eucl (⟨fun _ => 0, true⟩ : Pt 3).elem 0 ≤ 2 := by rw [eucl_le_iff (by norm_num)]; simp
  have c1 : eucl (⟨fun _ => 1, true⟩ : Pt 3).elem 0 ≤ 2 := by rw [eucl_le_iff (by norm_num)]; simp; norm_num
  have := C129_segment r ⟨rowA, rowB⟩ ⟨⟨fun _ => 0, true⟩, ⟨fun _ => 1, true⟩⟩ hA.2.1 hB.2.1 f0 f1 2 ⟨hA.2.2, hB.2.2⟩ ⟨c0, c1⟩
  exact (C129_box r ⟨rowA, rowB⟩ ⟨⟨fun _ => 0, true⟩, ⟨fun _ => 1, true⟩⟩ hA.2.1 hB.2.1 f0 f1 2 ⟨hA.2.2, hB.2.2⟩ ⟨c0, c1⟩).1

/-- The hypotheses of `C129_dim3_partial` are met by two opposite corners of the unit cube. -/
example (r : Rounding 53) : ∃ b, Fl.boundingSphereSloppy3 r false [⟨fun _ => 0, true⟩, ⟨fun _ => 1, true⟩] = some b ∧ b.valid = true := by
  have hp : ∀ p ∈ [(⟨fun _ => 0, true⟩ : Pt 3), ⟨fun _ => 1, true⟩], (∀ i, IsFl 53 (p.elem i)) ∧ eucl p.elem 0 ≤ 2 ∧ p.valid = true := by
    intro p hp
    simp only [List.mem_cons, List.not_mem_nil, or_false] at hp
    rcases hp with rfl | rfl
    · exact ⟨fun i => IsFl.zero, by rw [eucl_le_iff (by norm_num)]; simp, rfl⟩
    · exact ⟨fun i => ⟨1, 0, by norm_num, by norm_num⟩, by rw [eucl_le_iff (by norm_num)]; simp; norm_num, rfl⟩
  obtain ⟨h1, h2⟩ := C129_dim3_partial r false _ (by simp) (by simp) (fun p h => (hp p h).1) 2 fun p h => (hp p h).2.1
  obtain ⟨b, hb⟩ := h1 rfl
  exact ⟨b, hb, (h2 b hb).2.2.2 fun p h => (hp p h).2.2⟩

end WFMath
