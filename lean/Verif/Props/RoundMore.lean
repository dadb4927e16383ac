/- Property theorems C116, C125: going back along a vector, and turning a point about another by a quaternion, with rounding. -/
import Verif.Props.RoundMatrix
import Verif.Props.QuatShapes

namespace WFMath
open Spec Matrix Quaternion

variable {n : ℕ}

/-- C116, going back: `p - (p - q)` is `q` up to half a unit in the last place of `q` and of the difference, exactly if the two are close together; and a vector
added to a point and taken away again gives the point back up to two roundings. -/
theorem C116_back (r : Rounding 53) (p q : Pt n) (v : Vec n) (i : Fin n) :
    |(Fl.subVec r p (Fl.ptSub r p q)).elem i - q.elem i| ≤ 2 ^ (-53 : ℤ) * |q.elem i| + 2 ^ (-52 : ℤ) * |p.elem i - q.elem i| ∧
    (IsFl 53 (p.elem i) → IsFl 53 (q.elem i) → |p.elem i - q.elem i| ≤ |p.elem i| → |p.elem i - q.elem i| ≤ |q.elem i| →
      (Fl.subVec r p (Fl.ptSub r p q)).elem i = q.elem i) ∧
    |(Fl.subVec r (Fl.addVec r p v) v).elem i - p.elem i| ≤ 2 ^ (-53 : ℤ) * |p.elem i| + 2 ^ (-52 : ℤ) * |p.elem i + v.elem i| ∧
    |(Fl.addVec r (Fl.subVec r p v) v).elem i - p.elem i| ≤ 2 ^ (-53 : ℤ) * |p.elem i| + 2 ^ (-52 : ℤ) * |p.elem i - v.elem i| := by
  show |r (p.elem i - r (p.elem i - q.elem i)) - q.elem i| ≤ _ ∧ (_ → _ → _ → _ → r (p.elem i - r (p.elem i - q.elem i)) = q.elem i) ∧
    |r (r (p.elem i + v.elem i) - v.elem i) - p.elem i| ≤ _ ∧ |r (r (p.elem i - v.elem i) + v.elem i) - p.elem i| ≤ _
  generalize p.elem i = x
  generalize q.elem i = y
  generalize v.elem i = w
  have key : ∀ a b c d : ℝ, |b - d| ≤ 2 ^ (-53 : ℤ) * |c| → |a - b| ≤ 2 ^ (-53 : ℤ) * |b| → |a - d| ≤ 2 ^ (-53 : ℤ) * |d| + 2 ^ (-52 : ℤ) * |c| := by
    intro a b c d h1 h2
    have h3 : |b| ≤ |d| + |b - d| := by
      rw [show b = d + (b - d) by ring]; simpa using abs_add_le d (b - d)
    have h4 := abs_sub_le a b d
    have h5 := abs_nonneg c
    norm_num at h1 h2 ⊢
    nlinarith
  have h0 := r.err Fl.pos53
  rw [Fl.u53] at h0
  refine ⟨key _ _ _ _ ?_ (h0 _), ?_, key _ _ _ _ ?_ (h0 _), key _ _ _ _ ?_ (h0 _)⟩
  · rw [show x - r (x - y) - y = -(r (x - y) - (x - y)) by ring, abs_neg]; exact h0 _
  · intro hx hy h1 h2
    rw [r.of_fl (hx.sub hy h1 h2), show x - (x - y) = y by ring, r.of_fl hy]
  · rw [show r (x + w) - w - x = r (x + w) - (x + w) by ring]; exact h0 _
  · rw [show r (x - w) + w - x = r (x - w) - (x - w) by ring]; exact h0 _

/-- Close points: 3/2 taken away from 5/2, and the difference from 5/2, gives 3/2 exactly. -/
example (r : Rounding 53) : (Fl.subVec r (⟨![5 / 2], true⟩ : Pt 1) (Fl.ptSub r ⟨![5 / 2], true⟩ ⟨![3 / 2], true⟩)).elem 0 = 3 / 2 :=
  (C116_back r (⟨![5 / 2], true⟩ : Pt 1) ⟨![3 / 2], true⟩ Vec.zero 0).2.1 ⟨5, -1, by norm_num, by norm_num⟩ ⟨3, -1, by norm_num, by norm_num⟩
    (by norm_num [abs_of_pos]) (by norm_num [abs_of_pos])

/-- C125, rotation about a point by a quaternion: `x` turned about `p` by a quaternion that stands for the unit quaternion `u` is the exact rotated point up to the error
of the rotation and half a unit in the last place of `p`; in particular it keeps its distance to `p` in the same sense. -/
theorem C125_about_quaternion (r : Rounding 53) (q : Quat) (u : ℍ[ℝ]) (δ : ℝ) (hu : ‖u‖ = 1) (hq : ‖toH q - u‖ ≤ δ) (hδ : δ ≤ 1 / 100) (x p : Pt 3) :
    len ((Fl.ptRotateQ r x q p).elem - (p.elem + act u (x.elem - p.elem))) ≤
      (2 * (13 * δ + 20 * epsilon) + 3 * 2 ^ (-53 : ℤ)) * len (x.elem - p.elem) + 2 ^ (-53 : ℤ) * len p.elem ∧
    |eucl (Fl.ptRotateQ r x q p).elem p.elem - eucl x.elem p.elem| ≤
      (2 * (13 * δ + 20 * epsilon) + 3 * 2 ^ (-53 : ℤ)) * eucl x.elem p.elem + 2 ^ (-53 : ℤ) * len p.elem := by
  have u0 : (0 : ℝ) ≤ 2 ^ (-53 : ℤ) := by positivity
  have u1 : (2 : ℝ) ^ (-53 : ℤ) ≤ 1 / 1000000 := by norm_num
  have he := epsilon_pos
  have he2 := epsilon_lt
  norm_num at he2
  have δ0 := (norm_nonneg _).trans hq
  have hE : 0 ≤ 13 * δ + 20 * epsilon := by linarith
  have h1 : 13 * δ + 20 * epsilon ≤ 1 / 4 := by linarith
  have hu' := normSq_eq_one.2 hu
  have lA := len_act hu'
  have dA : ∀ a b, len (act u a - act u b) = len (a - b) := fun a b => by rw [← act_sub hu', len_act hu']
  have hV := C123_rotate r (Fl.ptSub r x p) q u δ hu hq hδ
  have main : len ((Fl.ptRotateQ r x q p).elem - (p.elem + act u (x.elem - p.elem))) ≤
      (2 * (13 * δ + 20 * epsilon) + 3 * 2 ^ (-53 : ℤ)) * len (x.elem - p.elem) + 2 ^ (-53 : ℤ) * len p.elem := by
    have hD := len_nonneg (x.elem - p.elem)
    have a1 : len ((Fl.ptSub r x p).elem - (x.elem - p.elem)) ≤ 2 ^ (-53 : ℤ) * len (x.elem - p.elem) := Fl.len_round r (x.elem - p.elem)
    have a3 : len ((Fl.ptRotateQ r x q p).elem - (p.elem + (Fl.rotateQ r (Fl.ptSub r x p) q).elem)) ≤
        2 ^ (-53 : ℤ) * len (p.elem + (Fl.rotateQ r (Fl.ptSub r x p) q).elem) := Fl.len_round r _
    generalize (Fl.ptRotateQ r x q p).elem = z at *
    generalize (Fl.rotateQ r (Fl.ptSub r x p) q).elem = y at *
    generalize (Fl.ptSub r x p).elem = a at *
    generalize x.elem - p.elem = d at *
    generalize p.elem = p at *
    generalize (2 : ℝ) ^ (-53 : ℤ) = t at *
    generalize 13 * δ + 20 * epsilon = E at *
    have l1 : len a ≤ (1 + t) * len d := by
      have := len_add_le (a - d) d; rw [sub_add_cancel] at this; linarith
    have d1 : len (y - act u d) ≤ E * len a + t * len d := by
      have := len_triangle y (act u a) (act u d); rw [dA] at this; linarith
    have l2 : len y ≤ (1 + E) * len a := by
      have := len_add_le (y - act u a) (act u a); rw [sub_add_cancel, lA] at this; linarith
    have l3 := len_add_le p y
    have t1 := len_triangle z (p + y) (p + act u d)
    rw [add_sub_add_left_eq_sub] at t1
    have ha0 := len_nonneg a
    generalize len d = X at *
    generalize len p = O at *
    generalize len y = Y at *
    generalize len a = a at *
    have ta : a ≤ (1 + 1 / 1000000) * X := l1.trans (mul_le_mul_of_nonneg_right (by linarith) hD)
    have tY : Y ≤ 13 / 10 * X := by
      have := mul_le_mul_of_nonneg_right (show 1 + E ≤ 5 / 4 by linarith) ha0
      linarith
    have t2 := mul_le_mul_of_nonneg_left l3 u0
    have t3 := mul_le_mul_of_nonneg_left tY u0
    have t4 := mul_le_mul_of_nonneg_left ta hE
    have t5 := mul_nonneg hE hD
    have t6 := mul_nonneg u0 hD
    linarith
  refine ⟨main, ?_⟩
  rw [eucl_eq_len, eucl_eq_len]
  refine le_trans ?_ main
  have e1 : len (x.elem - p.elem) = len (p.elem + act u (x.elem - p.elem) - p.elem) := by rw [add_sub_cancel_left, lA]
  rw [e1, abs_le]
  have t1 := len_triangle (Fl.ptRotateQ r x q p).elem (p.elem + act u (x.elem - p.elem)) p.elem
  have t2 := len_triangle (p.elem + act u (x.elem - p.elem)) (Fl.ptRotateQ r x q p).elem p.elem
  have e2 : len (p.elem + act u (x.elem - p.elem) - (Fl.ptRotateQ r x q p).elem) = len ((Fl.ptRotateQ r x q p).elem - (p.elem + act u (x.elem - p.elem))) := by
    rw [← neg_sub, len_neg]
  constructor <;> linarith

/-- The half turn about the direction of x: any point stays as far from (1, 1, 1) as it was, up to 10⁻¹² of the distance and half a unit in the last place. -/
example (r : Rounding 53) (x : Pt 3) :
    |eucl (Fl.ptRotateQ r x ⟨0, ⟨![1, 0, 0], true⟩, true, 0⟩ ⟨1, true⟩).elem 1 - eucl x.elem 1| ≤
      1 / 10 ^ 12 * eucl x.elem 1 + 2 ^ (-53 : ℤ) * len (1 : Fin 3 → ℝ) := by
  have h1 : ‖toH ⟨0, ⟨![1, 0, 0], true⟩, true, 0⟩‖ = 1 := normSq_eq_one.1 (by rw [Quaternion.normSq_def']; simp [toH])
  have h := (C125_about_quaternion r ⟨0, ⟨![1, 0, 0], true⟩, true, 0⟩ _ 0 h1 (by simp) (by norm_num) x ⟨1, true⟩).2
  refine h.trans (add_le_add_left (mul_le_mul_of_nonneg_right ?_ ?_) _)
  · rw [show epsilon = 30 * 2⁻¹ ^ 52 by unfold epsilon; norm_num]; norm_num
  · rw [eucl_eq_len]; exact len_nonneg _

end WFMath
