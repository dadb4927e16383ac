/- Property theorems C134, continued: segment and ball computed in doubles. -/
import Verif.Props.RoundSeg
import Verif.Props.RoundMatrix

namespace WFMath
open Spec Matrix Rounding
variable {n : Nat}

namespace Fl

/-- A point of a ray is hardly nearer to `o` than its start when the ray hardly turns towards `o`. -/
theorem near_line {l o : Fin n → ℝ} {s E : ℝ} (hE : 0 ≤ E) (h : l ⬝ᵥ o ≤ E * len l) (hs : 0 ≤ s) : len o ≤ len (o - s • l) + E := by
  have h0 := len_nonneg (o - s • l)
  have hl := len_nonneg l
  have e : len (o - s • l) ^ 2 = len o ^ 2 - 2 * s * (l ⬝ᵥ o) + s ^ 2 * len l ^ 2 := by
    rw [len_sq, len_sq, len_sq]
    simp only [sub_dotProduct, dotProduct_sub, smul_dotProduct, dotProduct_smul, smul_eq_mul, dotProduct_comm o l]; ring
  refine abs_le_of_sq_le_sq' ?_ (by positivity) |>.2
  nlinarith [sq_nonneg (s * len l - E), mul_nonneg h0 hE, mul_le_mul_of_nonneg_left h hs]

theorem near_mid {l o : Fin n → ℝ} {t E : ℝ} (hE : 0 ≤ E) (h : |t * len l ^ 2 - l ⬝ᵥ o| ≤ E * len l) (s : ℝ) : len (o - t • l) ≤ len (o - s • l) + E := by
  rw [_root_.abs_le] at h
  have e : l ⬝ᵥ (o - t • l) = l ⬝ᵥ o - t * len l ^ 2 := by rw [len_sq, dotProduct_sub, dotProduct_smul, smul_eq_mul]
  rcases le_total t s with hs | hs
  · have := near_line (l := l) (o := o - t • l) (s := s - t) hE (by rw [e]; linarith) (by linarith)
    rwa [show o - t • l - (s - t) • l = o - s • l by module] at this
  · have := near_line (l := -l) (o := o - t • l) (s := t - s) hE (by rw [neg_dotProduct, e, len_neg]; linarith) (by linarith)
    rwa [show o - t • l - (t - s) • (-l) = o - s • l by module] at this

theorem near_end {l o : Fin n → ℝ} {s E : ℝ} (hE : 0 ≤ E) (h : len l ^ 2 - l ⬝ᵥ o ≤ E * len l) (hs : s ≤ 1) : len (o - l) ≤ len (o - s • l) + E := by
  have := near_line (l := -l) (o := o - l) (s := 1 - s) hE (by
    rw [neg_dotProduct, dotProduct_sub, len_neg, ← len_sq]; linarith) (by linarith)
  rwa [show o - l - (1 - s) • (-l) = o - s • l by module] at this

/-- The inner product of two computed differences. -/
theorem proj_err (r : Rounding 53) (hn : n ≤ 50) (a b c : Pt n) :
    |dot r (ptSub r a c) (ptSub r b c) - (a.elem - c.elem) ⬝ᵥ (b.elem - c.elem)| ≤ 2 ^ (-46 : ℤ) * (len (a.elem - c.elem) * len (b.elem - c.elem)) ∨
    (dot r (ptSub r a c) (ptSub r b c) = 0 ∧ |(a.elem - c.elem) ⬝ᵥ (b.elem - c.elem)| ≤
      2 ^ (-46 : ℤ) * (len (a.elem - c.elem) * len (b.elem - c.elem)) + 3 * epsilon * min (len (a.elem - c.elem)) (len (b.elem - c.elem))) := by
  have hd := C118_dot r (ptSub r a c) (ptSub r b c) (by omega)
  have hx := len_round r (a.elem - c.elem)
  have hy := len_round r (b.elem - c.elem)
  change len ((ptSub r a c).elem - (a.elem - c.elem)) ≤ _ at hx
  change len ((ptSub r b c).elem - (b.elem - c.elem)) ≤ _ at hy
  generalize (ptSub r a c).elem = x' at hd hx
  generalize (ptSub r b c).elem = y' at hd hy
  have mx : maxAbs x' ≤ len x' := maxAbs_le (len_nonneg _) fun i => abs_le_len _ i
  have my : maxAbs y' ≤ len y' := maxAbs_le (len_nonneg _) fun i => abs_le_len _ i
  generalize dot r (ptSub r a c) (ptSub r b c) = p at *
  generalize a.elem - c.elem = x at *
  generalize b.elem - c.elem = y at *
  have hs : ∑ i, |x' i * y' i| ≤ len x' * len y' := by
    have h2 := abs_dot_le_len (fun i => |x' i|) fun i => |y' i|
    have h3 : ∀ x : Fin n → ℝ, len (fun i => |x i|) = len x := fun x => by
      unfold len dotProduct; congr 1; exact Finset.sum_congr rfl fun i _ => abs_mul_abs_self _
    rw [h3, h3] at h2
    refine le_trans (le_of_eq ?_) ((le_abs_self _).trans h2)
    exact Finset.sum_congr rfl fun i _ => abs_mul _ _
  have lx : len x' ≤ (1 + 2 ^ (-53 : ℤ)) * len x := by
    have := len_add_le (x' - x) x
    rw [sub_add_cancel] at this; linarith
  have ly : len y' ≤ (1 + 2 ^ (-53 : ℤ)) * len y := by
    have := len_add_le (y' - y) y
    rw [sub_add_cancel] at this; linarith
  have hX := len_nonneg x
  have hY := len_nonneg y
  have hX' := len_nonneg x'
  have hY' := len_nonneg y'
  have hsub : |x' ⬝ᵥ y' - x ⬝ᵥ y| ≤ len (x' - x) * len y' + len x * len (y' - y) := by
    have e : x' ⬝ᵥ y' - x ⬝ᵥ y = (x' - x) ⬝ᵥ y' + x ⬝ᵥ (y' - y) := by rw [sub_dotProduct, dotProduct_sub]; ring
    rw [e]
    exact (abs_add_le _ _).trans (add_le_add (abs_dot_le_len _ _) (abs_dot_le_len _ _))
  have hc : ((n : ℝ) + 1) * 2 ^ (-52 : ℤ) ≤ 102 * 2 ^ (-53 : ℤ) := by
    have : (n : ℝ) ≤ 50 := by exact_mod_cast hn
    rw [show (2 : ℝ) ^ (-52 : ℤ) = 2 * 2 ^ (-53 : ℤ) by norm_num]
    nlinarith [show (0 : ℝ) < 2 ^ (-53 : ℤ) by positivity]
  rw [show (2 : ℝ) ^ (-46 : ℤ) = 128 * 2 ^ (-53 : ℤ) by norm_num]
  have hw : (2 : ℝ) ^ (-53 : ℤ) ≤ 1 / 100 := by norm_num
  have hw0 : (0 : ℝ) < 2 ^ (-53 : ℤ) := by positivity
  have hz : (0 : ℝ) < 2 ^ (-52 : ℤ) := by positivity
  generalize (2 : ℝ) ^ (-53 : ℤ) = w at *
  generalize (2 : ℝ) ^ (-52 : ℤ) = z at *
  have hxy : len x' * len y' ≤ (1 + w) * len x * ((1 + w) * len y) := mul_le_mul lx ly hY' (by positivity)
  have hp : 0 ≤ len x * len y := mul_nonneg hX hY
  have h1 : ((n : ℝ) + 1) * z * ∑ i, |x' i * y' i| ≤ 106 * w * (len x * len y) := by
    refine (mul_le_mul hc hs (Finset.sum_nonneg fun _ _ => abs_nonneg _) (by positivity)).trans ?_
    have : (1 + w) * (1 + w) ≤ 103 / 100 := by nlinarith
    calc 102 * w * (len x' * len y') ≤ 102 * w * ((1 + w) * len x * ((1 + w) * len y)) := mul_le_mul_of_nonneg_left hxy (by positivity)
      _ = 102 * w * ((1 + w) * (1 + w)) * (len x * len y) := by ring
      _ ≤ 102 * w * (103 / 100) * (len x * len y) := mul_le_mul_of_nonneg_right (mul_le_mul_of_nonneg_left this (by positivity)) hp
      _ ≤ _ := by nlinarith
  have h2 : |x' ⬝ᵥ y' - x ⬝ᵥ y| ≤ 3 * w * (len x * len y) := by
    refine hsub.trans ?_
    have a1 : len (x' - x) * len y' ≤ w * len x * ((1 + w) * len y) := mul_le_mul hx ly hY' (by positivity)
    have a2 : len x * len (y' - y) ≤ len x * (w * len y) := mul_le_mul_of_nonneg_left hy hX
    nlinarith [mul_nonneg hw0.le hp, mul_nonneg (mul_nonneg hw0.le hp) (by linarith : 0 ≤ 1 / 100 - w)]
  have hwp : 0 ≤ w * (len x * len y) := mul_nonneg hw0.le hp
  rcases hd with hd | ⟨hd0, hd⟩
  · left
    have e : p - x ⬝ᵥ y = (p - x' ⬝ᵥ y') + (x' ⬝ᵥ y' - x ⬝ᵥ y) := by ring
    rw [e]
    refine (abs_add_le _ _).trans ?_
    linarith
  · right
    refine ⟨hd0, ?_⟩
    have he := epsilon_pos
    have e : x ⬝ᵥ y = x' ⬝ᵥ y' - (x' ⬝ᵥ y' - x ⬝ᵥ y) := by ring
    have h3 : |x ⬝ᵥ y| ≤ |x' ⬝ᵥ y'| + |x' ⬝ᵥ y' - x ⬝ᵥ y| := by
      conv_lhs => rw [e]
      exact abs_sub _ _
    have h4 : min (maxAbs x') (maxAbs y') ≤ (1 + w) * min (len x) (len y) := by
      rw [mul_min_of_nonneg _ _ (by linarith)]
      exact min_le_min (mx.trans lx) (my.trans ly)
    have h5 : 0 ≤ min (len x) (len y) := le_min hX hY
    have h6 : 2 * epsilon * min (maxAbs x') (maxAbs y') ≤ 3 * epsilon * min (len x) (len y) := by
      refine (mul_le_mul_of_nonneg_left h4 (by linarith)).trans ?_
      nlinarith [mul_nonneg he.le h5]
    linarith

/-- The squared length of a computed difference. -/
theorem sqr_err (r : Rounding 53) (hn : n ≤ 50) (a c : Pt n) :
    |sqrMag r (ptSub r a c) - len (a.elem - c.elem) ^ 2| ≤ 2 ^ (-46 : ℤ) * len (a.elem - c.elem) ^ 2 := by
  have h1 := sqDistSum_close r a.elem c.elem
  have h2 := Close_err' h1 (by omega)
  have e : ∑ i, (a.elem i - c.elem i) * (a.elem i - c.elem i) = len (a.elem - c.elem) ^ 2 := by rw [len_sq]; rfl
  rw [e, abs_of_nonneg (sq_nonneg (len _))] at h2
  refine h2.trans (mul_le_mul_of_nonneg_right ?_ (sq_nonneg _))
  have : (n : ℝ) ≤ 50 := by exact_mod_cast hn
  push_cast
  rw [show (2 : ℝ) ^ (-46 : ℤ) = 64 * 2 ^ (-52 : ℤ) by norm_num]
  nlinarith [show (0 : ℝ) < 2 ^ (-52 : ℤ) by positivity]

/-- The middle branch: the parameter is between 0 and 1 and nearly that of the nearest point, and the computed perpendicular part is nearly the vector from there. -/
theorem perp_err (r : Rounding 53) (hn : n ≤ 50) (a b c : Pt n) (h0 : 0 < dot r (ptSub r a c) (ptSub r b c))
    (h1 : dot r (ptSub r a c) (ptSub r b c) < sqrMag r (ptSub r a c)) : ∃ t, 0 ≤ t ∧ t ≤ 1 ∧
    |t * len (a.elem - c.elem) ^ 2 - (a.elem - c.elem) ⬝ᵥ (b.elem - c.elem)| ≤ 2 ^ (-44 : ℤ) * len (b.elem - c.elem) * len (a.elem - c.elem) ∧
    len ((sub r (ptSub r b c) (scale r (ptSub r a c) (r (dot r (ptSub r a c) (ptSub r b c) / sqrMag r (ptSub r a c))))).elem -
      (b.elem - c.elem - t • (a.elem - c.elem))) ≤ 2 ^ (-49 : ℤ) * len (b.elem - c.elem) := by
  have hd := (proj_err r hn a b c).resolve_right fun h => h0.ne' h.1
  have hL := sqr_err r hn a c
  have hx := len_round r (a.elem - c.elem)
  have hy := len_round r (b.elem - c.elem)
  change len ((ptSub r a c).elem - (a.elem - c.elem)) ≤ _ at hx
  change len ((ptSub r b c).elem - (b.elem - c.elem)) ≤ _ at hy
  have hLp : 0 < sqrMag r (ptSub r a c) := h0.trans h1
  have e1 := r.err pos53 (dot r (ptSub r a c) (ptSub r b c) / sqrMag r (ptSub r a c))
  have e2 := len_round r fun i => (ptSub r a c).elem i * r (dot r (ptSub r a c) (ptSub r b c) / sqrMag r (ptSub r a c))
  have e3 := len_round r fun i => (ptSub r b c).elem i - r ((ptSub r a c).elem i * r (dot r (ptSub r a c) (ptSub r b c) / sqrMag r (ptSub r a c)))
  have t0 : 0 ≤ r (dot r (ptSub r a c) (ptSub r b c) / sqrMag r (ptSub r a c)) := r.nonneg (by positivity)
  have t1 : r (dot r (ptSub r a c) (ptSub r b c) / sqrMag r (ptSub r a c)) ≤ 1 := r.le_fl (IsFl.one pos53) ((div_le_one hLp).2 h1.le)
  refine ⟨r (dot r (ptSub r a c) (ptSub r b c) / sqrMag r (ptSub r a c)), t0, t1, ?_⟩
  show _ ∧ len ((fun i => r ((ptSub r b c).elem i - r ((ptSub r a c).elem i * r (dot r (ptSub r a c) (ptSub r b c) / sqrMag r (ptSub r a c))))) - _) ≤ _
  rw [u53] at e1
  generalize hT : r (dot r (ptSub r a c) (ptSub r b c) / sqrMag r (ptSub r a c)) = t at *
  generalize sqrMag r (ptSub r a c) = L at *
  generalize dot r (ptSub r a c) (ptSub r b c) = p at *
  have f2 : len ((fun i => r ((ptSub r a c).elem i * t)) - t • (ptSub r a c).elem) ≤ 2 ^ (-53 : ℤ) * (t * len (ptSub r a c).elem) := by
    have e : (fun i => (ptSub r a c).elem i * t) = t • (ptSub r a c).elem := by funext i; simp [mul_comm]
    rw [e, len_smul, abs_of_nonneg t0] at e2; exact e2
  have e3' : len ((fun i => r ((ptSub r b c).elem i - r ((ptSub r a c).elem i * t))) - ((ptSub r b c).elem - fun i => r ((ptSub r a c).elem i * t))) ≤
      2 ^ (-53 : ℤ) * len ((ptSub r b c).elem - fun i => r ((ptSub r a c).elem i * t)) := e3
  clear e2 e3
  generalize (fun i => r ((ptSub r b c).elem i - r ((ptSub r a c).elem i * t))) = z at *
  generalize (fun i => r ((ptSub r a c).elem i * t)) = q at *
  generalize (ptSub r a c).elem = x' at *
  generalize (ptSub r b c).elem = y' at *
  generalize a.elem - c.elem = x at *
  generalize b.elem - c.elem = y at *
  have hX := len_nonneg x
  have hY := len_nonneg y
  rw [show (2 : ℝ) ^ (-44 : ℤ) = 512 * 2 ^ (-53 : ℤ) by norm_num, show (2 : ℝ) ^ (-49 : ℤ) = 16 * 2 ^ (-53 : ℤ) by norm_num]
  rw [show (2 : ℝ) ^ (-46 : ℤ) = 128 * 2 ^ (-53 : ℤ) by norm_num] at hd hL
  have hw : (2 : ℝ) ^ (-53 : ℤ) ≤ 1 / 10000 := by norm_num
  have hw0 : (0 : ℝ) < 2 ^ (-53 : ℤ) := by positivity
  generalize (2 : ℝ) ^ (-53 : ℤ) = w at *
  -- the parameter
  have hq : |t * L - p| ≤ w * p := by
    have : t * L - p = (t - p / L) * L := by field_simp
    rw [this, abs_mul, abs_of_pos hLp]
    refine (mul_le_mul_of_nonneg_right e1 hLp.le).trans (le_of_eq ?_)
    rw [abs_of_nonneg (by positivity)]; field_simp
  have hxy := abs_dot_le_len x y
  have hp : p ≤ 102 / 100 * (len x * len y) := by
    have := (_root_.abs_le.1 hd).2
    have := (_root_.abs_le.1 hxy).2
    nlinarith [mul_nonneg hX hY]
  have hXp : 0 < len x := by
    refine lt_of_le_of_ne hX fun hc => ?_
    rw [← hc] at hp; linarith
  have htx : t * len x ≤ 105 / 100 * len y := by
    have a1 := (_root_.abs_le.1 hq).2
    have a2 := (_root_.abs_le.1 hL).1
    have a3 : t * ((1 - 128 * w) * len x ^ 2) ≤ t * L := mul_le_mul_of_nonneg_left (by linarith) t0
    have a4 : t * (98 / 100 * len x ^ 2) ≤ t * ((1 - 128 * w) * len x ^ 2) := mul_le_mul_of_nonneg_left (mul_le_mul_of_nonneg_right (by linarith) (sq_nonneg _)) t0
    have a5 : w * p ≤ 1 / 10000 * p := mul_le_mul_of_nonneg_right hw h0.le
    have a6 : (98 / 100 * (t * len x)) * len x ≤ (98 / 100 * (105 / 100 * len y)) * len x := by nlinarith [mul_nonneg hX hY]
    have := le_of_mul_le_mul_right a6 hXp
    linarith
  constructor
  · have e : t * len x ^ 2 - x ⬝ᵥ y = -(t * (L - len x ^ 2)) + (t * L - p) + (p - x ⬝ᵥ y) := by ring
    have a1 : |t * (L - len x ^ 2)| ≤ t * (128 * w * len x ^ 2) := by rw [abs_mul, abs_of_nonneg t0]; exact mul_le_mul_of_nonneg_left hL t0
    have a2 : t * (128 * w * len x ^ 2) ≤ 128 * w * (105 / 100 * len y * len x) := by
      have := mul_le_mul_of_nonneg_right htx hX
      calc t * (128 * w * len x ^ 2) = 128 * w * (t * len x * len x) := by ring
        _ ≤ _ := mul_le_mul_of_nonneg_left this (by positivity)
    have a3 : w * p ≤ w * (102 / 100 * (len x * len y)) := mul_le_mul_of_nonneg_left hp hw0.le
    rw [e]
    refine (abs_add_le _ _).trans ((add_le_add_left (abs_add_le _ _) _).trans ?_)
    rw [abs_neg]
    have : 0 ≤ w * (len x * len y) := mul_nonneg hw0.le (mul_nonneg hX hY)
    nlinarith
  · have lx : len x' ≤ (1 + w) * len x := by
      have := len_add_le (x' - x) x
      rw [sub_add_cancel] at this; linarith
    have ly : len y' ≤ (1 + w) * len y := by
      have := len_add_le (y' - y) y
      rw [sub_add_cancel] at this; linarith
    have lq : len (q - t • x) ≤ w * (3 * len y) := by
      have := len_add_le (q - t • x') (t • (x' - x))
      rw [show q - t • x' + t • (x' - x) = q - t • x by module, len_smul, abs_of_nonneg t0] at this
      have b1 : t * len x' ≤ (1 + w) * (t * len x) := by nlinarith [mul_le_mul_of_nonneg_left lx t0]
      have b2 : t * len (x' - x) ≤ w * (t * len x) := by nlinarith [mul_le_mul_of_nonneg_left hx t0]
      have b3 : w * (t * len x') ≤ w * ((1 + w) * (t * len x)) := mul_le_mul_of_nonneg_left b1 hw0.le
      have b4 : w * (t * len x) ≤ w * (105 / 100 * len y) := mul_le_mul_of_nonneg_left htx hw0.le
      have b5 : 0 ≤ w * (t * len x) := by positivity
      have b6 : 0 ≤ w * len y := by positivity
      nlinarith
    have lq2 : len q ≤ 2 * len y := by
      have := len_add_le (q - t • x) (t • x)
      rw [sub_add_cancel, len_smul, abs_of_nonneg t0] at this
      nlinarith
    have lyq : len (y' - q) ≤ 4 * len y := by
      have := len_sub_le y' q
      nlinarith
    have e : z - (y - t • x) = (z - (y' - q)) + ((y' - y) - (q - t • x)) := by module
    rw [e]
    refine (len_add_le _ _).trans ((add_le_add e3' (len_sub_le _ _)).trans ?_)
    have b6 : 0 ≤ w * len y := by positivity
    have b7 : w * len (y' - q) ≤ w * (4 * len y) := mul_le_mul_of_nonneg_left lyq hw0.le
    linarith

theorem seg_len (s : Seg n) (c : Fin n → ℝ) {x : Fin n → ℝ} (hx : x ∈ segSet s) :
    ∃ t : ℝ, 0 ≤ t ∧ t ≤ 1 ∧ eucl x c = len (c - s.p1.elem - t • (s.p2.elem - s.p1.elem)) := by
  obtain ⟨t, t0, t1, rfl⟩ := hx
  exact ⟨t, t0, t1, by rw [eucl_eq_len, len_sub_comm]; congr 1; module⟩

end Fl

/-- C134, segment and ball: a segment that the test computed in doubles finds to meet the ball does meet the ball with its radius enlarged by the factor `1 + epsilon`
and by `2^-49` times the distance from the start of the segment to the centre, unless an end of the segment is so near to the centre that the squared distance is set
to 0. -/
theorem C134_ball_sound (r : Rounding 53) (s : Seg n) (b : Ball n) (hn : n ≤ 50) (hr : 0 ≤ b.radius) (proper : Bool) (h : Fl.interSBall r s b proper = true) :
    (∃ x ∈ segSet s, eucl x b.center.elem ≤ b.radius * (1 + epsilon) + 2 ^ (-49 : ℤ) * eucl b.center.elem s.p1.elem) ∨
      NearlyFlushed b.center s.p1 ∨ NearlyFlushed b.center s.p2 := by
  have hk : 0 ≤ 2 ^ (-49 : ℤ) * eucl b.center.elem s.p1.elem := mul_nonneg (by positivity) (eucl_nonneg _ _)
  have ends : ∀ p : Pt n, p.elem ∈ segSet s → Fl.interBallP r b p proper = true →
      (∃ x ∈ segSet s, eucl x b.center.elem ≤ b.radius * (1 + epsilon) + 2 ^ (-49 : ℤ) * eucl b.center.elem s.p1.elem) ∨ NearlyFlushed b.center p := by
    intro p hp hc
    rcases (C119_point r b p hn hr).2.2 proper hc with h1 | h1
    · exact .inl ⟨p.elem, hp, h1.trans (le_add_of_nonneg_right hk)⟩
    · exact .inr h1
  unfold Fl.interSBall at h
  simp only at h
  split_ifs at h with h1 h2
  · rcases ends _ (p1_mem s) h with h3 | h3
    · exact .inl h3
    · exact .inr (.inl h3)
  · rcases ends _ (p2_mem s) h with h3 | h3
    · exact .inl h3
    · exact .inr (.inr h3)
  · left
    push Not at h1 h2
    obtain ⟨t, t0, t1, -, ht⟩ := Fl.perp_err r hn s.p2 b.center s.p1 h1 h2
    refine ⟨segPt s t, segPt_mem s t0 t1, ?_⟩
    generalize Fl.sub r (Fl.ptSub r b.center s.p1) (Fl.scale r (Fl.ptSub r s.p2 s.p1) (r (Fl.dot r (Fl.ptSub r s.p2 s.p1) (Fl.ptSub r b.center s.p1) /
      Fl.sqrMag r (Fl.ptSub r s.p2 s.p1)))) = z at h ht
    have hz : Fl.sqrMag r z ≤ r (b.radius * b.radius) := by
      cases proper
      · rwa [lessEq_false] at h
      · rw [lessEq_true] at h; exact h.le
    have e : z.sqrMag = len z.elem ^ 2 := by rw [len_sq]; rfl
    have h3 := Fl.le_of_close (Fl.sqrMag_close r z) (Close.round_self Fl.pos53 r (b.radius * b.radius)) (by rw [e]; positivity) (mul_self_nonneg _) hz
    rw [e] at h3
    have h4 := Fl.margin_sound (by omega) (len_nonneg _) hr h3
    rw [eucl_eq_len, eucl_eq_len, len_sub_comm, show b.center.elem - segPt s t = b.center.elem - s.p1.elem - t • (s.p2.elem - s.p1.elem) by unfold segPt; module]
    have h5 := len_sub_le z.elem (z.elem - (b.center.elem - s.p1.elem - t • (s.p2.elem - s.p1.elem)))
    rw [sub_sub_cancel] at h5
    linarith

/-- C134, segment and ball: when the segment has a point inside the ball by a margin of the factor `1 + epsilon`, of 3 epsilon and of `2^-43` times the distance from the
start of the segment to the centre, the test computed in doubles finds that they meet, properly too. -/
theorem C134_ball_complete (r : Rounding 53) (s : Seg n) (b : Ball n) (hn : n ≤ 50) (proper : Bool)
    (h : ∃ x ∈ segSet s, (eucl x b.center.elem + 2 ^ (-43 : ℤ) * eucl b.center.elem s.p1.elem + 3 * epsilon) * (1 + epsilon) ≤ b.radius) :
    Fl.interSBall r s b proper = true := by
  obtain ⟨x, hx, h⟩ := h
  obtain ⟨t, t0, t1, e⟩ := Fl.seg_len s b.center.elem hx
  have he := epsilon_pos
  rw [e, eucl_eq_len b.center.elem s.p1.elem] at h
  have hp := Fl.proj_err r hn s.p2 b.center s.p1
  have hq := Fl.sqr_err r hn s.p2 s.p1
  have hX := len_nonneg (s.p2.elem - s.p1.elem)
  have hY := len_nonneg (b.center.elem - s.p1.elem)
  have hD := len_nonneg (b.center.elem - s.p1.elem - t • (s.p2.elem - s.p1.elem))
  rw [show (2 : ℝ) ^ (-43 : ℤ) = 1024 * 2 ^ (-53 : ℤ) by norm_num] at h
  rw [show (2 : ℝ) ^ (-46 : ℤ) = 128 * 2 ^ (-53 : ℤ) by norm_num] at hp hq
  have hw : (2 : ℝ) ^ (-53 : ℤ) ≤ 1 / 10000 := by norm_num
  have hw0 : (0 : ℝ) < 2 ^ (-53 : ℤ) := by positivity
  have hwY : 0 ≤ 2 ^ (-53 : ℤ) * len (b.center.elem - s.p1.elem) := mul_nonneg hw0.le hY
  have hr : 0 < b.radius := by
    refine lt_of_lt_of_le (mul_pos ?_ (by linarith)) h
    linarith
  -- what is enough at an end
  have ends : ∀ p : Pt n, len (b.center.elem - p.elem) ≤ len (b.center.elem - s.p1.elem - t • (s.p2.elem - s.p1.elem)) +
      (512 * 2 ^ (-53 : ℤ) * len (b.center.elem - s.p1.elem) + 3 * epsilon) → Fl.interBallP r b p proper = true := by
    intro p hp
    have h1 : eucl p.elem b.center.elem < b.radius := by
      rw [eucl_comm, eucl_eq_len]
      have h0 := len_nonneg (b.center.elem - p.elem)
      nlinarith
    have c := C119_point r b p hn hr.le
    cases proper
    · exact c.1 h1.le
    · exact c.2.1 h1
  unfold Fl.interSBall
  simp only
  split_ifs with h1 h2
  · apply ends
    have hE : 0 ≤ 512 * 2 ^ (-53 : ℤ) * len (b.center.elem - s.p1.elem) + 3 * epsilon := by positivity
    refine Fl.near_line hE ?_ t0
    have hxy : 0 ≤ 2 ^ (-53 : ℤ) * len (b.center.elem - s.p1.elem) * len (s.p2.elem - s.p1.elem) := mul_nonneg hwY hX
    rcases hp with hp | ⟨-, hp⟩
    · have := (_root_.abs_le.1 hp).1
      nlinarith [mul_nonneg he.le hX]
    · have := (le_abs_self _).trans hp
      have h3 : 3 * epsilon * min (len (s.p2.elem - s.p1.elem)) (len (b.center.elem - s.p1.elem)) ≤ 3 * epsilon * len (s.p2.elem - s.p1.elem) :=
        mul_le_mul_of_nonneg_left (min_le_left _ _) (by positivity)
      nlinarith
  · apply ends
    push Not at h1
    have hp' := hp.resolve_right fun hc => h1.ne' hc.1
    have h3 : b.center.elem - s.p2.elem = b.center.elem - s.p1.elem - (s.p2.elem - s.p1.elem) := by abel
    rw [h3]
    have hE : 0 ≤ 512 * 2 ^ (-53 : ℤ) * len (b.center.elem - s.p1.elem) + 3 * epsilon := by positivity
    refine Fl.near_end hE ?_ t1
    have hc := (abs_dot_le_len (s.p2.elem - s.p1.elem) (b.center.elem - s.p1.elem))
    have a1 := (_root_.abs_le.1 hp').2
    have a2 := (_root_.abs_le.1 hq).1
    have a3 := (le_abs_self _).trans hc
    have hex : 0 ≤ epsilon * len (s.p2.elem - s.p1.elem) := mul_nonneg he.le hX
    have hxy : 0 ≤ len (s.p2.elem - s.p1.elem) * len (b.center.elem - s.p1.elem) := mul_nonneg hX hY
    generalize (2 : ℝ) ^ (-53 : ℤ) = w at *
    have a4 : len (s.p2.elem - s.p1.elem) * len (s.p2.elem - s.p1.elem) ≤ len (s.p2.elem - s.p1.elem) * (2 * len (b.center.elem - s.p1.elem)) := by nlinarith
    nlinarith [mul_le_mul_of_nonneg_left a4 hw0.le, mul_nonneg hw0.le hxy]
  · push Not at h1 h2
    obtain ⟨t', -, -, hm, ht⟩ := Fl.perp_err r hn s.p2 b.center s.p1 h1 h2
    generalize Fl.sub r (Fl.ptSub r b.center s.p1) (Fl.scale r (Fl.ptSub r s.p2 s.p1) (r (Fl.dot r (Fl.ptSub r s.p2 s.p1) (Fl.ptSub r b.center s.p1) /
      Fl.sqrMag r (Fl.ptSub r s.p2 s.p1)))) = z at ht
    have h3 := Fl.near_mid (mul_nonneg (by positivity) hY) hm t
    have h4 := len_add_le (z.elem - (b.center.elem - s.p1.elem - t' • (s.p2.elem - s.p1.elem))) (b.center.elem - s.p1.elem - t' • (s.p2.elem - s.p1.elem))
    rw [sub_add_cancel] at h4
    rw [show (2 : ℝ) ^ (-49 : ℤ) = 16 * 2 ^ (-53 : ℤ) by norm_num] at ht
    rw [show (2 : ℝ) ^ (-44 : ℤ) = 512 * 2 ^ (-53 : ℤ) by norm_num] at h3
    have hz := len_nonneg z.elem
    have h5 : (len z.elem + 3 * epsilon) * (1 + epsilon) ≤ b.radius := by
      refine le_trans (mul_le_mul_of_nonneg_right ?_ (by linarith)) h
      linarith
    have ez : z.sqrMag = len z.elem ^ 2 := by rw [len_sq]; rfl
    have hf := Fl.fudge (k := 1 + n + 1) (by omega)
    have h6 : len z.elem ^ 2 < b.radius * b.radius * (1 - u 53) ^ (1 + n + 1) := by
      have g0 := (Close.pow Fl.pos53 (1 + n + 1)).1
      have g1 : len z.elem * (1 + epsilon) < b.radius := by nlinarith
      have g2 : (len z.elem * (1 + epsilon)) * (len z.elem * (1 + epsilon)) < b.radius * b.radius := mul_self_lt_mul_self (by positivity) g1
      calc len z.elem ^ 2 ≤ len z.elem ^ 2 * ((1 + epsilon) * (1 - u 53) ^ (1 + n + 1)) := le_mul_of_one_le_right (sq_nonneg _) hf
        _ ≤ len z.elem ^ 2 * ((1 + epsilon) * (1 - u 53) ^ (1 + n + 1)) * (1 + epsilon) := le_mul_of_one_le_right (by positivity) (by linarith)
        _ = (len z.elem * (1 + epsilon)) * (len z.elem * (1 + epsilon)) * (1 - u 53) ^ (1 + n + 1) := by ring
        _ < _ := mul_lt_mul_of_pos_right g2 g0
    have h7 := Fl.close_lt (Fl.sqrMag_close r z) (Close.round_self Fl.pos53 r (b.radius * b.radius)) (by rw [ez]; positivity) (mul_self_nonneg _) (by rw [ez]; exact h6)
    cases proper
    · rw [lessEq_false]; exact h7.le
    · rw [lessEq_true]; exact h7

end WFMath
