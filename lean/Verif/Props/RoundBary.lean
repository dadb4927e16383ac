/- Property theorems C126: barycenters in floating point arithmetic. -/
import Verif.Props.Point
import Verif.Lemmas.Rounded

namespace WFMath
open Spec
open WFMath.Spec.Rounding (u)
variable {n : Nat}

namespace Fl

theorem gam_mul (k l : Nat) : (1 + gam k) * (1 + gam l) = 1 + gam (k + l) := by
  unfold gam
  rw [pow_add]
  have := (Close.pow pos53 k).1
  have := (Close.pow pos53 l).1
  field_simp
  ring

/-- One more term of a running sum: the term carries an error of `k` roundings at most. -/
theorem run_step (r : Rounding 53) {m k : Nat} {s' s A x' x : ℝ} (hkm : k ≤ m) (h : |s' - s| ≤ gam m * A) (hs : |s| ≤ A) (hx : |x' - x| ≤ gam k * |x|) :
    |r (s' + x') - (s + x)| ≤ gam (m + 1) * (A + |x|) ∧ |s + x| ≤ A + |x| := by
  have h3 : |s + x| ≤ A + |x| := (abs_add_le _ _).trans (by linarith)
  refine ⟨?_, h3⟩
  have hx' : |x' - x| ≤ gam m * |x| := hx.trans (mul_le_mul_of_nonneg_right (gam_mono hkm) (abs_nonneg _))
  have h2 : |(s' + x') - (s + x)| ≤ gam m * (A + |x|) := by
    rw [show (s' + x') - (s + x) = (s' - s) + (x' - x) by ring]
    exact (abs_add_le _ _).trans (by linarith)
  have h4 : |s' + x'| ≤ (1 + gam m) * (A + |x|) := by
    rw [show s' + x' = (s + x) + ((s' + x') - (s + x)) by ring]
    exact (abs_add_le _ _).trans (by linarith)
  have h5 := r.err pos53 (s' + x')
  have h6 := mul_le_mul_of_nonneg_left h4 (Rounding.u_pos (p := 53)).le
  have h7 := mul_le_mul_of_nonneg_right (gam_succ m) ((abs_nonneg _).trans h3)
  rw [show r (s' + x') - (s + x) = (r (s' + x') - (s' + x')) + ((s' + x') - (s + x)) by ring]
  refine (abs_add_le _ _).trans ?_
  linarith

theorem round_step (r : Rounding 53) {m : Nat} {s' s A : ℝ} (h : |s' - s| ≤ gam m * A) (hs : |s| ≤ A) : |r s' - s| ≤ gam (m + 1) * A := by
  have := (run_step r (x' := 0) (x := 0) (Nat.zero_le m) h hs (by simp)).1
  simpa using this

theorem bLoop_err (r : Rounding 53) (ps : List (Pt n)) (k m : Nat) (ok : Bool) (out s A : Fin n → ℝ) (hk : k + ps.length ≤ 2 ^ 53)
    (h : ∀ j, |out j - s j| ≤ gam m * A j) (hs : ∀ j, |s j| ≤ A j) :
    (bLoop r ((k : ℝ), ok, out) ps).1 = ((k + ps.length : Nat) : ℝ) ∧ (bLoop r ((k : ℝ), ok, out) ps).2.1 = (ok && ps.all (·.valid)) ∧
    ∀ j, |(bLoop r ((k : ℝ), ok, out) ps).2.2 j - (s j + (ps.map fun p => p.elem j).sum)| ≤
      gam (m + ps.length) * (A j + (ps.map fun p => |p.elem j|).sum) := by
  induction ps generalizing k m ok out s A with
  | nil => simpa [bLoop] using h
  | cons p ps ih =>
    rw [List.length_cons] at hk
    have e : r ((k : ℝ) + 1) = ((k + 1 : Nat) : ℝ) := by
      push_cast
      have := r.of_fl (IsFl.nat pos53 (k := k + 1) (by omega))
      push_cast at this
      exact this
    have hst := fun j => run_step r (x' := p.elem j) (x := p.elem j) (Nat.zero_le m) (h j) (hs j) (by simp [gam])
    obtain ⟨i1, i2, i3⟩ := ih (k + 1) (m + 1) (ok && p.valid) (fun j => r (out j + p.elem j)) (fun j => s j + p.elem j) (fun j => A j + |p.elem j|)
      (by omega) (fun j => (hst j).1) (fun j => (hst j).2)
    rw [bLoop, e]
    refine ⟨by rw [i1, List.length_cons]; congr 1; omega, by rw [i2, List.all_cons, Bool.and_assoc], fun j => ?_⟩
    have := i3 j
    rw [List.length_cons, List.map_cons, List.map_cons, List.sum_cons, List.sum_cons, show m + (ps.length + 1) = m + 1 + ps.length by omega, ← add_assoc (s j), ← add_assoc (A j)]
    exact this

theorem listSum_abs_le {α : Type} (l : List α) (f : α → ℝ) : |(l.map f).sum| ≤ (l.map fun x => |f x|).sum := by
  induction l with
  | nil => simp
  | cons a l ih => simp only [List.map_cons, List.sum_cons]; exact (abs_add_le _ _).trans (by linarith)

theorem listSum_abs_nonneg {α : Type} (l : List α) (f : α → ℝ) : 0 ≤ (l.map fun x => |f x|).sum := (abs_nonneg _).trans (listSum_abs_le l f)

theorem wLoop_err (r : Rounding 53) (ps : List (Pt n)) (ws : List ℝ) (m : Nat) (hm : 1 ≤ m) (tot' tot mx : ℝ) (ok : Bool) (out s A : Fin n → ℝ)
    (ht : Close 53 m tot' tot) (h0 : 0 ≤ tot) (hw : ∀ w ∈ ws, 0 ≤ w) (hx : mx ≤ tot)
    (h : ∀ j, |out j - s j| ≤ gam m * A j) (hs : ∀ j, |s j| ≤ A j) :
    Close 53 (m + (ps.zip ws).length) (wLoop r (tot', mx, ok, out) ps ws).1 (tot + ((ps.zip ws).map (·.2)).sum) ∧
    mx ≤ (wLoop r (tot', mx, ok, out) ps ws).2.1 ∧ (wLoop r (tot', mx, ok, out) ps ws).2.1 ≤ tot + ((ps.zip ws).map (·.2)).sum ∧
    (∀ x ∈ ps.zip ws, x.2 ≤ (wLoop r (tot', mx, ok, out) ps ws).2.1) ∧
    (wLoop r (tot', mx, ok, out) ps ws).2.2.1 = (ok && (ps.zip ws).all (·.1.valid)) ∧
    ∀ j, |(wLoop r (tot', mx, ok, out) ps ws).2.2.2 j - (s j + ((ps.zip ws).map fun x => x.2 * x.1.elem j).sum)| ≤
      gam (m + (ps.zip ws).length) * (A j + ((ps.zip ws).map fun x => |x.2 * x.1.elem j|).sum) := by
  induction ps generalizing ws m tot' tot mx ok out s A with
  | nil => simpa [wLoop, hx] using ⟨ht, h⟩
  | cons p ps ih =>
    cases ws with
    | nil => simpa [wLoop, hx] using ⟨ht, h⟩
    | cons w ws =>
      have w0 : 0 ≤ w := hw w (by simp)
      have hst := fun j => run_step r (x' := r (p.elem j * w)) (x := w * p.elem j) hm (h j) (hs j)
        (by have := Close_err (Close.round_self pos53 r (p.elem j * w)); rwa [mul_comm w])
      have ht' : Close 53 (m + 1) (r (tot' + w)) (tot + w) := (ht.add pos53 (Close.refl pos53 m w) h0 w0).round pos53 r
      obtain ⟨i1, i2, i2', i3, i4, i5⟩ := ih ws (m + 1) (by omega) (r (tot' + w)) (tot + w) (if |w| > mx then |w| else mx) (ok && p.valid) (fun j => r (out j + r (p.elem j * w)))
        (fun j => s j + w * p.elem j) (fun j => A j + |w * p.elem j|) ht' (by linarith) (fun w hw' => hw w (by simp [hw']))
        (by rw [abs_of_nonneg w0]; split <;> linarith) (fun j => (hst j).1) (fun j => (hst j).2)
      have hmx : mx ≤ (if |w| > mx then |w| else mx) := by split <;> linarith
      have hwx : w ≤ (if |w| > mx then |w| else mx) := by rw [abs_of_nonneg w0]; split <;> linarith
      rw [wLoop, List.zip_cons_cons, List.length_cons, List.map_cons, List.sum_cons, show m + ((ps.zip ws).length + 1) = m + 1 + (ps.zip ws).length by omega, ← add_assoc tot]
      refine ⟨i1, hmx.trans i2, i2', ?_, by rw [i4, List.all_cons, Bool.and_assoc], fun j => ?_⟩
      · intro x hx'
        rcases List.mem_cons.1 hx' with rfl | hx'
        · exact hwx.trans i2
        · exact i3 x hx'
      · rw [List.map_cons, List.map_cons, List.sum_cons, List.sum_cons, ← add_assoc (s j), ← add_assoc (A j)]
        exact i5 j

end Fl

/-- C126: up to 2^52 points, in every coordinate the computed barycenter differs from the mean by at most one part in 2^52 of the sum of the
absolute values; it is valid when all the points are. -/
theorem C126_mean (r : Rounding 53) (ps : List (Pt n)) (h : ps ≠ []) (hk : ps.length ≤ 2 ^ 52) :
    (∀ j, |(Fl.barycenter r ps).elem j - (ps.map fun p => p.elem j).sum / ps.length| ≤ 2 ^ (-52 : ℤ) * (ps.map fun p => |p.elem j|).sum) ∧
    ((Fl.barycenter r ps).valid = true ↔ ∀ p ∈ ps, p.valid = true) := by
  cases ps with
  | nil => exact absurd rfl h
  | cons p ps =>
    rw [List.length_cons] at hk
    obtain ⟨h1, h2, h3⟩ := Fl.bLoop_err r ps 1 0 p.valid p.elem p.elem (fun j => |p.elem j|) (by omega) (fun j => by simp [Fl.gam]) (fun j => le_rfl)
    rw [Nat.cast_one] at h1 h2 h3
    refine ⟨fun j => ?_, ?_⟩
    · simp only [Fl.barycenter, List.map_cons, List.sum_cons, List.length_cons]
      rw [h1, add_comm ps.length]
      have hK : (0 : ℝ) < ((1 + ps.length : Nat) : ℝ) := by positivity
      have hS : |p.elem j + (ps.map fun p => p.elem j).sum| ≤ |p.elem j| + (ps.map fun p => |p.elem j|).sum :=
        (abs_add_le _ _).trans (by linarith [Fl.listSum_abs_le ps fun p => p.elem j])
      have h4 := h3 j
      have h5 := Fl.gam_le (k := 1 + ps.length) (by omega)
      rw [show 1 + ps.length = 0 + ps.length + 1 by omega] at h5
      have h6 := mul_le_mul_of_nonneg_right h5 ((abs_nonneg _).trans hS)
      generalize hKe : ((1 + ps.length : Nat) : ℝ) = K at hK ⊢
      rw [show 0 + ps.length + 1 = 1 + ps.length by omega, hKe, show 1 + ps.length = 0 + ps.length + 1 by omega] at h6
      generalize p.elem j + (ps.map fun p => p.elem j).sum = S at *
      generalize |p.elem j| + (ps.map fun p => |p.elem j|).sum = A at *
      have := Fl.round_step r (s' := (Fl.bLoop r (1, p.valid, p.elem) ps).2.2 j / K) (s := S / K) (A := A / K) (m := 0 + ps.length)
        (by rw [← sub_div, abs_div, abs_of_pos hK, ← mul_div_assoc]; gcongr) (by rw [abs_div, abs_of_pos hK]; gcongr)
      refine this.trans ?_
      rw [← mul_div_assoc, div_le_iff₀ hK]
      linarith
    · simp only [Fl.barycenter, h2]
      simp

/-- C126: the barycenter of one point with double coordinates is that point. -/
theorem C126_single (r : Rounding 53) (p : Pt n) (hp : ∀ j, IsFl 53 (p.elem j)) : Fl.barycenter r [p] = p := by
  ext j
  · simpa [Fl.barycenter, Fl.bLoop] using r.of_fl (hp j)
  · simp [Fl.barycenter, Fl.bLoop]

/-- C126: with nonnegative weights, not all 0, the computed barycenter differs in every coordinate from the weighted mean by at most
`2k + 1` parts in 2^52 of the weighted mean of the absolute values, for `k` points with weights; it is valid when those points are. -/
theorem C126_weighted (r : Rounding 53) (ps : List (Pt n)) (ws : List ℝ) (hw : ∀ w ∈ ws, 0 ≤ w) (hpos : 0 < ((ps.zip ws).map (·.2)).sum)
    (hk : 2 * (ps.zip ws).length < 2 ^ 52) :
    (∀ j, |(Fl.barycenterW r ps ws).elem j - ((ps.zip ws).map fun x => x.2 * x.1.elem j).sum / ((ps.zip ws).map (·.2)).sum| ≤
      (2 * (ps.zip ws).length + 1) * 2 ^ (-52 : ℤ) * (((ps.zip ws).map fun x => x.2 * |x.1.elem j|).sum / ((ps.zip ws).map (·.2)).sum)) ∧
    ((Fl.barycenterW r ps ws).valid = true ↔ ∀ x ∈ ps.zip ws, x.1.valid = true) := by
  cases ps with
  | nil => simp at hpos
  | cons p ps =>
    cases ws with
    | nil => simp at hpos
    | cons w ws =>
      have w0 : 0 ≤ w := hw w (by simp)
      obtain ⟨h1, h2, h2', h3, h4, h5⟩ := Fl.wLoop_err r ps ws 1 le_rfl w w |w| p.valid (fun j => r (p.elem j * w)) (fun j => w * p.elem j)
        (fun j => |w * p.elem j|) (Close.refl Fl.pos53 1 w) w0 (fun w hw' => hw w (by simp [hw'])) (abs_of_nonneg w0).le
        (fun j => by rw [mul_comm w]; exact Fl.Close_err (Close.round_self Fl.pos53 r _)) (fun j => le_rfl)
      have hL : (((p :: ps).zip (w :: ws)).length) = 1 + (ps.zip ws).length := by simp [add_comm]
      have hT : (((p :: ps).zip (w :: ws)).map (·.2)).sum = w + ((ps.zip ws).map (·.2)).sum := by simp
      rw [hT] at hpos
      rw [hL] at hk
      have hws : ∀ x ∈ ps.zip ws, 0 ≤ x.2 := fun x hx => hw _ (by simp [(List.of_mem_zip (show (x.1, x.2) ∈ ps.zip ws from hx)).2])
      rw [hT, hL]
      simp only [Fl.barycenterW]
      generalize Fl.wLoop r (w, |w|, p.valid, fun j => r (p.elem j * w)) ps ws = R at *
      obtain ⟨tot', mx, ok, out⟩ := R
      simp only at h1 h2 h2' h3 h4 h5 ⊢
      have hmx : 0 < mx := by
        by_contra hc
        have : ((ps.zip ws).map (·.2)).sum ≤ 0 := by
          have := sum_le_card (l := (ps.zip ws).map (·.2)) (M := 0) fun x hx => by
            obtain ⟨y, hy, rfl⟩ := List.mem_map.1 hx
            linarith [h3 y hy]
          simpa using this
        linarith [le_abs_self w]
      have hA : ∀ j, (((p :: ps).zip (w :: ws)).map fun x => x.2 * |x.1.elem j|).sum = |w * p.elem j| + ((ps.zip ws).map fun x => |x.2 * x.1.elem j|).sum := fun j => by
        rw [List.zip_cons_cons, List.map_cons, List.sum_cons, abs_mul, abs_of_nonneg w0]
        congr 2
        refine List.map_congr_left fun x hx => ?_
        rw [abs_mul, abs_of_nonneg (hws x hx)]
      have hS : ∀ j, (((p :: ps).zip (w :: ws)).map fun x => x.2 * x.1.elem j).sum = w * p.elem j + ((ps.zip ws).map fun x => x.2 * x.1.elem j).sum := fun j => by
        rw [List.zip_cons_cons, List.map_cons, List.sum_cons]
      have hSA : ∀ j, |w * p.elem j + ((ps.zip ws).map fun x => x.2 * x.1.elem j).sum| ≤ |w * p.elem j| + ((ps.zip ws).map fun x => |x.2 * x.1.elem j|).sum := fun j =>
        (abs_add_le _ _).trans (by linarith [Fl.listSum_abs_le (ps.zip ws) fun x => x.2 * x.1.elem j])
      simp only [hA, hS]
      generalize w + ((ps.zip ws).map (·.2)).sum = T at *
      have hK : 1 + (ps.zip ws).length ≤ 2 ^ 51 := by omega
      have e1 := Fl.Close_err' h1 (by omega)
      have hcut : ¬ (mx ≤ 0 ∨ |tot'| ≤ r (mx * epsilon)) := by
        have he := epsilon_pos
        have he2 := epsilon_lt
        norm_num at he2
        push Not
        refine ⟨hmx, ?_⟩
        have a1 : ((1 + (ps.zip ws).length : Nat) : ℝ) * 2 ^ (-52 : ℤ) ≤ 1 / 2 := by
          have : ((1 + (ps.zip ws).length : Nat) : ℝ) ≤ 2 ^ 51 := by exact_mod_cast hK
          calc _ ≤ (2 : ℝ) ^ 51 * 2 ^ (-52 : ℤ) := by gcongr
            _ = 1 / 2 := by norm_num
        have a2 := mul_le_mul_of_nonneg_right a1 (abs_nonneg T)
        rw [abs_of_pos hpos] at a2 e1
        have a3 := (abs_le.1 (e1.trans a2)).1
        have a4 := r.abs_le Fl.pos53 (mx * epsilon)
        have a5 := Rounding.u_le_half Fl.pos53
        rw [abs_of_pos (mul_pos hmx he)] at a4
        have a6 := mul_le_mul_of_nonneg_right a5 (mul_pos hmx he).le
        have a7 := mul_le_mul_of_nonneg_right h2' he.le
        have a8 := mul_lt_mul_of_pos_left he2 hpos
        calc r (mx * epsilon) ≤ |r (mx * epsilon)| := le_abs_self _
          _ < T / 2 := by linarith
          _ ≤ tot' := by linarith
          _ ≤ |tot'| := le_abs_self _
      rw [if_neg hcut]
      refine ⟨fun j => ?_, by rw [h4]; simp⟩
      have b := h5 j
      have bS := hSA j
      generalize w * p.elem j + ((ps.zip ws).map fun x => x.2 * x.1.elem j).sum = S at *
      generalize |w * p.elem j| + ((ps.zip ws).map fun x => |x.2 * x.1.elem j|).sum = A at *
      have hA0 : 0 ≤ A := (abs_nonneg _).trans bS
      have c1 := Fl.Close_err (h1.inv Fl.pos53)
      have c2 := Fl.gam_mul (1 + (ps.zip ws).length) (1 + (ps.zip ws).length)
      have c3 := Fl.gam_nonneg (1 + (ps.zip ws).length)
      have c5 := Fl.gam_le (k := 1 + (ps.zip ws).length + (1 + (ps.zip ws).length) + 1) (by omega)
      have Ti : 0 < T⁻¹ := inv_pos.2 hpos
      rw [abs_of_pos Ti] at c1
      have key : |out j / tot' - S / T| ≤ Fl.gam (1 + (ps.zip ws).length + (1 + (ps.zip ws).length)) * (A / T) := by
        generalize Fl.gam (1 + (ps.zip ws).length + (1 + (ps.zip ws).length)) = G at *
        generalize Fl.gam (1 + (ps.zip ws).length) = g at *
        have d1 : |tot'⁻¹| ≤ (1 + g) * T⁻¹ := by
          rw [show tot'⁻¹ = (tot'⁻¹ - T⁻¹) + T⁻¹ by ring]
          refine (abs_add_le _ _).trans ?_
          rw [abs_of_pos Ti]; linarith
        rw [div_eq_mul_inv, div_eq_mul_inv, div_eq_mul_inv, show out j * tot'⁻¹ - S * T⁻¹ = (out j - S) * tot'⁻¹ + S * (tot'⁻¹ - T⁻¹) by ring]
        refine (abs_add_le _ _).trans ?_
        rw [abs_mul, abs_mul]
        have d2 := mul_le_mul b d1 (abs_nonneg _) (by positivity)
        have d3 := mul_le_mul bS c1 (abs_nonneg _) hA0
        have d4 : G = g * (1 + g) + g := by linarith
        rw [d4]
        calc _ ≤ _ := add_le_add d2 d3
          _ = _ := by ring
      have f := Fl.round_step r key (by rw [abs_div, abs_of_pos hpos]; gcongr)
      refine f.trans (mul_le_mul_of_nonneg_right (c5.trans (le_of_eq ?_)) (by positivity))
      push_cast; ring

/-- Five copies of one point: their mean is that point, and so it is the only point of their bounding box; but the computed
barycenter is not in it. Whatever way the ties are broken. -/
theorem C126_false (r : Rounding 53) :
    (∀ j, IsFl 53 (((⟨fun _ => 7578022325469505, true⟩ : Pt 1)).elem j)) ∧
    (Fl.barycenter r (List.replicate 5 (⟨fun _ => 7578022325469505, true⟩ : Pt 1))).elem 0 = 7578022325469506 := by
  refine ⟨fun _ => by simpa using IsFl.nat Fl.pos53 (k := 7578022325469505) (by norm_num), ?_⟩
  have h1 := r.eq_of_near Fl.pos53 (x := 15156044650939010) (e := 53) (k := 7578022325469505) (by norm_num) (by norm_num) (by norm_num)
  have h2 := r.eq_of_near Fl.pos53 (x := 22734066976408515) (e := 54) (k := 5683516744102129) (by norm_num) (by norm_num) (by norm_num)
  have h3 := r.eq_of_near Fl.pos53 (x := 30312089301878021) (e := 54) (k := 7578022325469505) (by norm_num) (by norm_num) (by norm_num)
  have h4 := r.eq_of_near Fl.pos53 (x := 37890111627347525) (e := 55) (k := 4736263953418441) (by norm_num) (by norm_num) (by norm_num)
  have h5 := r.eq_of_near Fl.pos53 (x := 37890111627347528 / 5) (e := 52) (k := 7578022325469506) (by norm_num) (by norm_num) (by norm_num [abs_lt])
  have c1 := r.of_fl (IsFl.nat Fl.pos53 (k := 2) (by norm_num))
  have c2 := r.of_fl (IsFl.nat Fl.pos53 (k := 3) (by norm_num))
  have c3 := r.of_fl (IsFl.nat Fl.pos53 (k := 4) (by norm_num))
  have c4 := r.of_fl (IsFl.nat Fl.pos53 (k := 5) (by norm_num))
  norm_num at h1 h2 h3 h4 h5 c1 c2 c3 c4
  simp only [List.replicate, Fl.barycenter, Fl.bLoop]
  norm_num [h1, h2, h3, h4, h5, c1, c2, c3, c4]

/-- Three points, the third a hundred times further out: the hypotheses of `C126_mean` and `C126_weighted` hold. -/
example (r : Rounding 53) :
    |(Fl.barycenter r [(⟨![1, 2], true⟩ : Pt 2), ⟨![3, 1 / 10], true⟩, ⟨![100, -1 / 3], true⟩]).elem 0 - 104 / 3| ≤ 2 ^ (-52 : ℤ) * 104 ∧
    |(Fl.barycenterW r [(⟨![1, 2], true⟩ : Pt 2), ⟨![3, 1 / 10], true⟩, ⟨![100, -1 / 3], true⟩] [1, 0, 1 / 4]).elem 0 - 104 / 5| ≤ 7 * 2 ^ (-52 : ℤ) * (104 / 5) := by
  have h1 := (C126_mean r [(⟨![1, 2], true⟩ : Pt 2), ⟨![3, 1 / 10], true⟩, ⟨![100, -1 / 3], true⟩] (by simp) (by simp)).1 0
  have h2 := (C126_weighted r [(⟨![1, 2], true⟩ : Pt 2), ⟨![3, 1 / 10], true⟩, ⟨![100, -1 / 3], true⟩] [1, 0, 1 / 4] (by simp) (by norm_num) (by simp)).1 0
  norm_num at h1 h2 ⊢
  exact ⟨h1, h2⟩

end WFMath
