/- Property theorems C162: centres of lists of points and of plane polygons after any history of motions in floating point. -/
import Verif.Props.RoundSegSteps
import Verif.Props.RoundBallHistory
import Verif.Props.RoundBary

namespace WFMath
open Spec Matrix Rounding
variable {n : Nat}

/-- The mean of a list of points, exactly. -/
noncomputable def Spec.mean (ps : List (Fin n → ℝ)) : Fin n → ℝ := fun j => (ps.map fun x => x j).sum / ps.length

namespace Fl

theorem len_of_coords {v : Fin n → ℝ} {B : ℝ} (h : ∀ i, |v i| ≤ B) (hB : 0 ≤ B) : len v ≤ n * B := by
  refine Real.sqrt_le_iff.2 ⟨by positivity, ?_⟩
  have a : v ⬝ᵥ v ≤ ∑ _i : Fin n, B ^ 2 := Finset.sum_le_sum fun i _ => by
    have := pow_le_pow_left₀ (abs_nonneg _) (h i) 2
    rw [sq_abs] at this
    calc v i * v i = v i ^ 2 := by ring
      _ ≤ B ^ 2 := this
  rw [Finset.sum_const, Finset.card_univ, Fintype.card_fin, nsmul_eq_mul] at a
  have b : (n : ℝ) ≤ n ^ 2 := by exact_mod_cast Nat.le_self_pow (by norm_num) n
  calc v ⬝ᵥ v ≤ n * B ^ 2 := a
    _ ≤ n ^ 2 * B ^ 2 := mul_le_mul_of_nonneg_right b (sq_nonneg B)
    _ = (n * B) ^ 2 := by ring

theorem mean_cons (p : Fin n → ℝ) (ps : List (Fin n → ℝ)) (h : ps ≠ []) :
    mean (p :: ps) = (1 - 1 / ((ps.length : ℝ) + 1)) • mean ps + (1 / ((ps.length : ℝ) + 1)) • p := by
  have k0 : (ps.length : ℝ) ≠ 0 := by exact_mod_cast List.length_pos_iff.2 h |>.ne'
  have k1 : (ps.length : ℝ) + 1 ≠ 0 := by positivity
  ext j
  simp only [mean, List.map_cons, List.sum_cons, List.length_cons, Pi.add_apply, Pi.smul_apply, smul_eq_mul]
  push_cast
  field_simp
  ring

/-- A map that keeps distances keeps the points between two points. -/
theorem iso_between {T : (Fin n → ℝ) → (Fin n → ℝ)} (hT : ∀ x y, len (T x - T y) = len (x - y)) (a b : Fin n → ℝ) (t : ℝ) :
    T ((1 - t) • a + t • b) = (1 - t) • T a + t • T b := by
  have h := len_between (T a) (T b) (T ((1 - t) • a + t • b)) t
  rw [hT, hT, hT, ← len_between, sub_self] at h
  have z : len ((1 - t) • T a + t • T b - T ((1 - t) • a + t • b)) = 0 := by
    have : len (0 : Fin n → ℝ) = 0 := by simp [len]
    rw [this] at h
    exact pow_eq_zero_iff (two_ne_zero) |>.1 (h.trans (by norm_num))
  have e : eucl ((1 - t) • T a + t • T b) (T ((1 - t) • a + t • b)) = 0 := by rw [eucl_eq_len]; exact z
  exact (eucl_eq_zero.1 e).symm

/-- A map that keeps distances keeps means. -/
theorem iso_mean {T : (Fin n → ℝ) → (Fin n → ℝ)} (hT : ∀ x y, len (T x - T y) = len (x - y)) (ps : List (Fin n → ℝ)) (h : ps ≠ []) : T (mean ps) = mean (ps.map T) := by
  induction ps with
  | nil => exact absurd rfl h
  | cons p ps ih =>
    by_cases hp : ps = []
    · subst hp
      have one : ∀ x : Fin n → ℝ, mean [x] = x := fun x => by ext j; simp [mean]
      rw [List.map_cons, List.map_nil, one, one]
    · rw [mean_cons p ps hp, List.map_cons, mean_cons (T p) (ps.map T) (by simpa using hp), iso_between hT, ih hp, List.length_map]

theorem mean_beside (ps : List (Pt n)) (f g : Pt n → (Fin n → ℝ)) {δ : ℝ} (h : ps ≠ []) (hd : ∀ p ∈ ps, len (f p - g p) ≤ δ) : len (mean (ps.map f) - mean (ps.map g)) ≤ δ := by
  induction ps with
  | nil => exact absurd rfl h
  | cons p ps ih =>
    by_cases hp : ps = []
    · subst hp
      have one : ∀ x : Fin n → ℝ, mean [x] = x := fun x => by ext j; simp [mean]
      simpa [one] using hd p (by simp)
    · have hi := ih hp fun q hq => hd q (List.mem_cons_of_mem _ hq)
      have hq := hd p (by simp)
      rw [List.map_cons, List.map_cons, mean_cons _ _ (by simpa using hp), mean_cons _ _ (by simpa using hp), List.length_map, List.length_map]
      set t : ℝ := 1 / ((ps.length : ℝ) + 1) with ht
      have t0 : 0 ≤ t := by positivity
      have t1 : t ≤ 1 := by rw [ht, div_le_one (by positivity)]; linarith [(Nat.cast_nonneg ps.length : (0 : ℝ) ≤ ps.length)]
      rw [show (1 - t) • mean (ps.map f) + t • f p - ((1 - t) • mean (ps.map g) + t • g p) = (1 - t) • (mean (ps.map f) - mean (ps.map g)) + t • (f p - g p) by module]
      refine (len_add_le _ _).trans ?_
      rw [len_smul, len_smul, abs_of_nonneg t0, abs_of_nonneg (sub_nonneg.2 t1)]
      nlinarith [mul_le_mul_of_nonneg_left hi (sub_nonneg.2 t1), mul_le_mul_of_nonneg_left hq t0]

theorem bary_mean (r : Rounding 53) (ps : List (Pt n)) (h : ps ≠ []) (hk : ps.length ≤ 2 ^ 52) {M : ℝ} (M0 : 0 ≤ M) (hM : ∀ p ∈ ps, len p.elem ≤ M) :
    len ((barycenter r ps).elem - mean (ps.map Pt.elem)) ≤ n * (2 ^ (-52 : ℤ) * (ps.length * M)) := by
  refine len_of_coords (fun j => ?_) (by positivity)
  have a := (C126_mean r ps h hk).1 j
  have e : mean (ps.map Pt.elem) j = (ps.map fun p => p.elem j).sum / ps.length := by simp [mean, Function.comp_def]
  have b : (ps.map fun p => |p.elem j|).sum ≤ ps.length * M := by
    have := List.sum_le_card_nsmul (ps.map fun p => |p.elem j|) M fun x hx => by
      obtain ⟨p, hp, rfl⟩ := List.mem_map.1 hx
      exact (abs_le_len _ j).trans (hM p hp)
    rwa [List.length_map, nsmul_eq_mul] at this
  rw [Pi.sub_apply, e]
  exact a.trans (mul_le_mul_of_nonneg_left b (by positivity))

/-- The barycenter of points computed with errors, against the barycenter moved with errors. -/
theorem bary_moved (r : Rounding 53) {T : (Fin n → ℝ) → (Fin n → ℝ)} (hT : ∀ x y, len (T x - T y) = len (x - y)) {g : Pt n → Pt n} {δ M : ℝ} (M0 : 0 ≤ M)
    (ps : List (Pt n)) (h : ps ≠ []) (hk : ps.length ≤ 2 ^ 52) (hM : ∀ p ∈ ps, len p.elem ≤ M) (hM' : ∀ p ∈ ps, len (g p).elem ≤ M)
    (hg : ∀ p ∈ ps, len ((g p).elem - T p.elem) ≤ δ) (hb : len ((g (barycenter r ps)).elem - T (barycenter r ps).elem) ≤ δ) :
    eucl (barycenter r (ps.map g)).elem (g (barycenter r ps)).elem ≤ 2 * δ + n * ps.length * 2 ^ (-51 : ℤ) * M := by
  have a := bary_mean r ps h hk M0 hM
  have b := bary_mean r (ps.map g) (by simpa using h) (by simpa using hk) M0 fun p hp => by
    obtain ⟨q, hq, rfl⟩ := List.mem_map.1 hp
    exact hM' q hq
  rw [List.length_map, List.map_map] at b
  have c := mean_beside ps (Pt.elem ∘ g) (T ∘ Pt.elem) h hg
  have d := iso_mean hT (ps.map Pt.elem) (by simpa using h)
  rw [List.map_map] at d
  rw [← d] at c
  rw [eucl_eq_len]
  have t1 := len_triangle (barycenter r (ps.map g)).elem (mean (ps.map (Pt.elem ∘ g))) (g (barycenter r ps)).elem
  have t2 := len_triangle (mean (ps.map (Pt.elem ∘ g))) (T (mean (ps.map Pt.elem))) (g (barycenter r ps)).elem
  have t3 := len_triangle (T (mean (ps.map Pt.elem))) (T (barycenter r ps).elem) (g (barycenter r ps)).elem
  rw [hT, len_sub_comm (mean _), len_sub_comm (T (barycenter r ps).elem)] at t3
  have e : (n : ℝ) * ps.length * 2 ^ (-51 : ℤ) * M = 2 * (n * (2 ^ (-52 : ℤ) * (ps.length * M))) := by norm_num; ring
  rw [e]
  linarith

end Fl

/-- C162, points of any dimension: the library's barycenter of the points after a history of calls in doubles is where the barycenter of the points at the start comes through the
same calls, up to the drift of the history and the rounding of the two barycenters. `M` bounds the points and their barycenter at the start and after every call. -/
theorem C162_barycenter (r : Rounding 53) (hn : n < 2 ^ 52) (h : List (Fl.Step n)) (E M : ℝ) (h0 : 2 * n * (n + 1) * 2 ^ (-52 : ℤ) ≤ E) (h1 : E ≤ 1 / 10)
    (hf : ∀ s ∈ h, s.Fits E M) (ps : List (Pt n)) (hne : ps ≠ []) (hk : ps.length ≤ 2 ^ 52) (hp : ∀ p ∈ ps, Fl.Remains r M h p) (hb : Fl.Remains r M h (Fl.barycenter r ps)) :
    eucl (Fl.barycenter r (ps.map (Fl.stepPoint r h))).elem (Fl.stepPoint r h (Fl.barycenter r ps)).elem ≤
      h.length * (4 * (2 * E + 2 ^ (-51 : ℤ)) * M) + n * ps.length * 2 ^ (-51 : ℤ) * M := by
  have M0 : 0 ≤ M := (len_nonneg _).trans (hb 0 (Nat.zero_le _))
  obtain ⟨T, hT, er⟩ := Fl.steps_near r hn h0 h1 M0 h hf
  have fin : ∀ {x : Pt n}, Fl.Remains r M h x → len (Fl.stepPoint r h x).elem ≤ M := fun {x} hx => by
    have := hx h.length le_rfl
    rwa [List.take_length] at this
  refine (Fl.bary_moved r hT M0 ps hne hk (fun p hm => hp p hm 0 (Nat.zero_le _)) (fun p hm => fin (hp p hm)) (fun p hm => er p (hp p hm)) (er _ hb)).trans (le_of_eq ?_)
  ring

/-- C162, plane polygons: the centre of the polygon after a history of calls in doubles is where the centre at the start comes through the same calls, up to the drift of the history
and the rounding of the two centres. -/
theorem C162_polygon (r : Rounding 53) (h : List Fl.Motion) (E M : ℝ) (h0 : 12 * 2 ^ (-52 : ℤ) ≤ E) (h1 : E ≤ 1 / 4) (hf : ∀ mo ∈ h, mo.Fits E M)
    (ps : Corners 2) (hne : ps ≠ []) (hk : ps.length ≤ 2 ^ 52) (hp : ∀ p ∈ ps, Fl.StaysIn r M h p) (hb : Fl.StaysIn r M h (Fl.barycenter r ps)) :
    eucl (Fl.barycenter r (Fl.movePoly r h ps)).elem (Fl.movePoint r h (Fl.barycenter r ps)).elem ≤
      h.length * (4 * (E + 5 * 2 ^ (-53 : ℤ)) * M) + ps.length * 2 ^ (-50 : ℤ) * M := by
  have M0 : 0 ≤ M := (len_nonneg _).trans (hb 0 (Nat.zero_le _))
  obtain ⟨A, T, hA, hT, er⟩ := Fl.history_near r h0 h1 M0 h hf
  rw [Fl.movePoly_eq]
  refine (Fl.bary_moved r (fun x y => by rw [hT, Fl.len_orth hA]) M0 ps hne hk (fun p hm => hp p hm 0 (Nat.zero_le _)) (fun p hm => Fl.stays_end (hp p hm))
    (fun p hm => er p (hp p hm)) (er _ hb)).trans (le_of_eq ?_)
  norm_num; ring

end WFMath
