/- Property theorems C138, arrays that have to be improved first. -/
import Verif.Props.RoundSetVals

namespace WFMath
open Spec Matrix Gauss Rounding

namespace Fl

/-- One improvement in the plane. -/
theorem improve_plane (r : Rounding 53) {V : Matrix (Fin 2) (Fin 2) ℝ} (hV : ∀ i j, IsFl 53 (V i j)) {δ : ℝ} (hδ : δ ≤ 1 / 1000) (h : ∀ i j, |(V * Vᵀ - 1) i j| ≤ δ) (h0 : 3 / 4 ≤ |V 0 0|) :
    ∃ V', improve r doubleLimits V = some V' ∧ (∀ i j, IsFl 53 (V' i j)) ∧ (∀ i j, |(V' * V'ᵀ - 1) i j| ≤ δ ^ 2 + 50 * u 53) ∧ ∀ i j, |V' i j - V i j| ≤ 16 / 10 * δ + 61 * u 53 := by
  have hu0 : 0 < u 53 := u_pos
  have hu : u 53 ≤ 1 / 1000000 := by rw [u53]; norm_num
  obtain ⟨X, hX, hres⟩ := plane_residual r (M := Vᵀ) (fun i j => hV j i) (fun i j => (entry_near hδ h j i).trans (by norm_num))
    (by have := det_near_two hδ h; rw [det_fin_two] at this; simpa [mul_comm (V 1 0)] using this) (P := 4 / 3) (by norm_num) (by norm_num) (by norm_num; exact h0)
  have hres' : ∀ i j, |(X * Vᵀ - 1) i j| ≤ 356 / 10 * u 53 := fun i j => (hres i j).trans (by linarith)
  obtain ⟨g1, g2⟩ := polish r (by norm_num) hδ (show 356 / 10 * u 53 ≤ 1 / 1000 by linarith) h hres' (Matrix.of fun i j => r (r (V i j + X i j) / 2)) (fun i j => rfl)
  have hX' : inverseImpl r doubleLimits (Matrix.of fun i j => V j i) identityArr = some X := hX
  refine ⟨Matrix.of fun i j => r (r (V i j + X i j) / 2), ?_, fun i j => r.isFl _, fun i j => ?_, fun i j => ?_⟩
  · unfold improve
    rw [hX']
    rfl
  · refine (g1 i j).trans ?_
    linarith
  · refine (g2 i j).trans ?_
    linarith

/-- What the loop makes of an array of given quality after a number of rounds. -/
def Settles (r : Rounding 53) (k : Nat) (d : ℝ) : Prop :=
  ∀ (V : Matrix (Fin 2) (Fin 2) ℝ) (p δ : ℝ), (∀ i j, IsFl 53 (V i j)) → δ ≤ d → (∀ i j, |(V * Vᵀ - 1) i j| ≤ δ) → 3 / 4 + 2 * δ + 170 * u 53 * k ≤ |V 0 0| → δ + 8 * u 53 ≤ p →
    ∀ fuel, ∃ v, setValsLoop r doubleLimits p (fuel + k + 1) V = .accepted v ∧ ∀ i j, |v i j - V i j| ≤ 2 * δ + 170 * u 53 * k

theorem entry_bound (r : Rounding 53) {n : Nat} (hn : n ≤ 3) {V : Matrix (Fin n) (Fin n) ℝ} {δ : ℝ} (hδ : δ ≤ 1 / 1000) (h : ∀ i j, |(V * Vᵀ - 1) i j| ≤ δ) (i j : Fin n) :
    |orthEntry r V i j| ≤ δ + 53 / 10 * u 53 := by
  have hu0 : 0 < u 53 := u_pos
  have h1 := entry_of_near r hn V h i j
  have h2 := abs_sub_abs_le_abs_sub (orthEntry r V i j) ((V * Vᵀ - 1) i j)
  have := h i j
  nlinarith

theorem settles_zero (r : Rounding 53) : Settles r 0 (505 / 10 * u 53) := by
  intro V p δ hV hδ h h0 hp fuel
  have hu0 : 0 < u 53 := u_pos
  have hu : u 53 ≤ 1 / 1000000 := by rw [u53]; norm_num
  have hδ0 := (abs_nonneg _).trans (h 0 0)
  have hb := entry_bound r (by norm_num) (show δ ≤ 1 / 1000 by linarith) h
  have o1 : orthError r V ≤ p := (orthError_le r).2 ⟨by linarith, fun i j => (hb i j).trans (by linarith)⟩
  have o2 : orthError r V ≤ epsilon := (orthError_le r).2 ⟨epsilon_pos.le, fun i j => (hb i j).trans (by rw [eps_u]; linarith)⟩
  refine ⟨V, ?_, fun i j => ?_⟩
  · unfold setValsLoop
    rw [if_neg (by linarith), if_pos o2]
  · rw [sub_self, abs_zero]
    push_cast
    linarith

theorem settles_succ (r : Rounding 53) {k : Nat} {d d' : ℝ} (hs : Settles r k d') (hd : d ≤ 1 / 1000) (hdd : d ^ 2 + 50 * u 53 ≤ d') : Settles r (k + 1) d := by
  intro V p δ hV hδ h h0 hp fuel
  have hu0 : 0 < u 53 := u_pos
  have hδ0 := (abs_nonneg _).trans (h 0 0)
  have hδ1 : δ ≤ 1 / 1000 := hδ.trans hd
  have hb := entry_bound r (by norm_num) hδ1 h
  have o1 : orthError r V ≤ p := (orthError_le r).2 ⟨by linarith, fun i j => (hb i j).trans (by linarith)⟩
  have hk : 0 ≤ u 53 * k := by positivity
  push_cast at h0 ⊢
  unfold setValsLoop
  rw [if_neg (by linarith)]
  by_cases o2 : orthError r V ≤ epsilon
  · rw [if_pos o2]
    refine ⟨V, rfl, fun i j => ?_⟩
    rw [sub_self, abs_zero]
    nlinarith
  · rw [if_neg o2]
    have hpe : epsilon < p := (not_le.1 o2).trans_le o1
    rw [eps_u] at hpe
    obtain ⟨V', hi, hV', hdep, hmove⟩ := improve_plane r hV hδ1 h (by nlinarith)
    rw [hi]
    have hsq : δ ^ 2 ≤ δ / 1000 := by nlinarith
    have hsq' : δ ^ 2 ≤ d ^ 2 := pow_le_pow_left₀ hδ0 hδ 2
    have hm := hmove 0 0
    have hm2 : |V 0 0| ≤ |V' 0 0| + |V' 0 0 - V 0 0| := by
      have := abs_sub (V' 0 0) (V' 0 0 - V 0 0); rwa [sub_sub_cancel] at this
    obtain ⟨v, hv, hvm⟩ := hs V' p (δ ^ 2 + 50 * u 53) hV' (by linarith) hdep (by nlinarith) (by linarith) fuel
    refine ⟨v, by rw [show fuel + (k + 1) = fuel + k + 1 by ring]; exact hv, fun i j => ?_⟩
    have a := hvm i j
    have b := hmove i j
    have c := abs_add_le (v i j - V' i j) (V' i j - V i j)
    rw [sub_add_sub_cancel] at c
    nlinarith

theorem settles (r : Rounding 53) : Settles r 3 (1 / 1000) := by
  have hu0 : 0 < u 53 := u_pos
  have hu : u 53 ≤ 1 / 2 ^ 53 := by rw [u53]; norm_num
  have hu' : 1 / 2 ^ 53 ≤ u 53 := by rw [u53]; norm_num
  norm_num at hu hu'
  refine settles_succ r (settles_succ r (settles_succ r (settles_zero r) (d := 1 / 10 ^ 11) (by norm_num) ?_) (d := 2 / 10 ^ 6) (by norm_num) ?_) (by norm_num) ?_
  · norm_num; linarith
  · norm_num; linarith
  · norm_num; linarith

end Fl

/-- C138, in part (when the first element is not small): in the plane an array that departs from an orthogonal one by up to a thousandth, and by less than the precision, is improved and accepted after at most three rounds when its
first element is not small; what is stored differs from it by no more than about twice that departure, and carries the parity of its determinant. -/
theorem C138_improves_plane_partial (r : Rounding 53) (fuel : Nat) (m : RotMat 2) (vals : Matrix (Fin 2) (Fin 2) ℝ) (hfl : ∀ i j, IsFl 53 (vals i j)) (p : ℝ) (hp : |p| < 0.9) (δ : ℝ)
    (hδ : δ ≤ 1 / 1000) (h : ∀ i j, |(vals * valsᵀ - 1) i j| ≤ δ) (hδp : δ + 2 ^ (-50 : ℤ) ≤ |p|) (h0 : 4 / 5 ≤ |vals 0 0|) :
    ∃ m', Fl.setVals r doubleLimits (fuel + 4) m vals p = some (m', true) ∧ (∀ i j, |m'.elem i j - vals i j| ≤ 2 * δ + 2 ^ (-44 : ℤ)) ∧ (m'.flip = true ↔ vals.det < 0) := by
  have hu0 : 0 < u 53 := u_pos
  have hu : u 53 ≤ 1 / 1000000000 := by rw [Fl.u53]; norm_num
  have e50 : (2 : ℝ) ^ (-50 : ℤ) = 8 * u 53 := by rw [Fl.u53]; norm_num
  have e44 : (2 : ℝ) ^ (-44 : ℤ) = 512 * u 53 := by rw [Fl.u53]; norm_num
  rw [e50] at hδp
  rw [e44]
  obtain ⟨v, hv, hm⟩ := Fl.settles r vals |p| δ hfl hδ h (by push_cast; linarith) hδp fuel
  have hset : Fl.setVals r doubleLimits (fuel + 4) m vals p = some (⟨v, decide (Fl.determinantImpl r doubleLimits v < 0), true, 1⟩, true) := by
    unfold Fl.setVals
    rw [if_neg (by linarith), show fuel + 4 = fuel + 3 + 1 from rfl, hv]
  have hm' : ∀ i j, |v i j - vals i j| ≤ 2 * δ + 512 * u 53 := fun i j => (hm i j).trans (by push_cast; linarith)
  refine ⟨_, hset, hm', ?_⟩
  rw [(C138_parity_plane r _ m _ vals hfl p hset).1]
  have near : ∀ i j, |v i j - vals i j| ≤ 1 / 400 := fun i j => (hm' i j).trans (by linarith)
  have le := entry_near hδ h
  have hd := det_near_two hδ h
  have s : SignType.sign v.det = SignType.sign vals.det := by
    refine Fl.sign_of_near (e := 1 / 10) ?_ (by linarith)
    rw [det_fin_two, det_fin_two]
    have e : v 0 0 * v 1 1 - v 0 1 * v 1 0 - (vals 0 0 * vals 1 1 - vals 0 1 * vals 1 0) =
        ((v 0 0 - vals 0 0) * vals 1 1 + vals 0 0 * (v 1 1 - vals 1 1) + (v 0 0 - vals 0 0) * (v 1 1 - vals 1 1)) -
        ((v 0 1 - vals 0 1) * vals 1 0 + vals 0 1 * (v 1 0 - vals 1 0) + (v 0 1 - vals 0 1) * (v 1 0 - vals 1 0)) := by ring
    have t : ∀ x y : ℝ, |x| ≤ 1 / 400 → |y| ≤ 1001 / 1000 → |x * y| ≤ 1 / 300 := fun x y hx hy => by
      rw [abs_mul]; nlinarith [abs_nonneg x, abs_nonneg y]
    have t' : ∀ x y : ℝ, |x| ≤ 1001 / 1000 → |y| ≤ 1 / 400 → |x * y| ≤ 1 / 300 := fun x y hx hy => by rw [mul_comm]; exact t y x hy hx
    have w := fun i j => (near i j).trans (show (1 : ℝ) / 400 ≤ 1001 / 1000 by norm_num)
    rw [e]
    refine (abs_sub _ _).trans ?_
    have a := abs_add_three ((v 0 0 - vals 0 0) * vals 1 1) (vals 0 0 * (v 1 1 - vals 1 1)) ((v 0 0 - vals 0 0) * (v 1 1 - vals 1 1))
    have b := abs_add_three ((v 0 1 - vals 0 1) * vals 1 0) (vals 0 1 * (v 1 0 - vals 1 0)) ((v 0 1 - vals 0 1) * (v 1 0 - vals 1 0))
    linarith [t _ _ (near 0 0) (le 1 1), t' _ _ (le 0 0) (near 1 1), t _ _ (near 0 0) (w 1 1), t _ _ (near 0 1) (le 1 0), t' _ _ (le 0 1) (near 1 0), t _ _ (near 0 1) (w 1 0)]
  show v.det < 0 ↔ _
  rw [← sign_eq_neg_one_iff, s, sign_eq_neg_one_iff]

/-- A turn a little too long, as it may come out of a file with few digits: accepted, improved and stored as a rotation, however ties are rounded. -/
example (r : Rounding 53) (m : RotMat 2) : ∃ m', Fl.setVals r doubleLimits 4 m !![7 / 8, -(31 / 64); 31 / 64, 7 / 8] (1 / 100) = some (m', true) ∧
    (∀ i j, |m'.elem i j - !![7 / 8, -(31 / 64); 31 / 64, 7 / 8] i j| ≤ 2 * (1 / 1000) + 2 ^ (-44 : ℤ)) ∧ m'.flip = false := by
  have fl : ∀ i j, IsFl 53 ((!![7 / 8, -(31 / 64); 31 / 64, 7 / 8] : Matrix (Fin 2) (Fin 2) ℝ) i j) := fun i j => by
    have a : IsFl 53 (7 / 8 : ℝ) := ⟨7, -3, by norm_num, by norm_num⟩
    have b : IsFl 53 (31 / 64 : ℝ) := ⟨31, -6, by norm_num, by norm_num⟩
    have c : IsFl 53 (-(31 / 64) : ℝ) := ⟨-31, -6, by norm_num, by norm_num⟩
    fin_cases i <;> fin_cases j <;> first | exact a | exact b | exact c
  have near : ∀ i j, |((!![7 / 8, -(31 / 64); 31 / 64, 7 / 8] : Matrix (Fin 2) (Fin 2) ℝ) * (!![7 / 8, -(31 / 64); 31 / 64, 7 / 8] : Matrix (Fin 2) (Fin 2) ℝ)ᵀ - 1) i j| ≤ 1 / 1000 := fun i j => by
    rw [Matrix.sub_apply, Matrix.mul_apply, Fin.sum_univ_two]
    simp only [Matrix.transpose_apply]
    fin_cases i <;> fin_cases j <;> simp <;> norm_num [_root_.abs_le]
  obtain ⟨m', h1, h2, h3⟩ := C138_improves_plane_partial r 0 m !![7 / 8, -(31 / 64); 31 / 64, 7 / 8] fl (1 / 100) (by norm_num [abs_of_pos]) (1 / 1000) le_rfl near
    (by norm_num [abs_of_pos]) (by norm_num [abs_of_pos])
  refine ⟨m', h1, h2, ?_⟩
  rw [det_fin_two] at h3
  rw [← Bool.not_eq_true, h3]
  norm_num

end WFMath
