/- Property theorems C142, continued: tests that compare differences with a tolerance, and scalar products. -/
import Verif.Lemmas.IeeeSub
import Verif.Props.RoundVector
import Verif.Props.RoundCompare

namespace WFMath
open Spec
variable {n : Nat}

/-- C142, numbers: for doubles that are 0 or between 2^-440 and 2^499 in absolute value and a tolerance up to 1/4, `Equal` gives the answer of exact arithmetic.
Missing: numbers outside the range. -/
theorem C142_number_partial (g : Nearest) (fe : ℤ) (x y eps : ℝ) (dx : IsDbl x) (dy : IsDbl y) (hx : Nrm (-440) 499 x) (hy : Nrm (-440) 499 y)
    (de : IsDbl eps) (he : Nrm (-500) 500 eps) (h0 : 0 ≤ eps) (h1 : eps ≤ 1 / 4) :
    Ie.equal g fe (.num x) (.num y) (.num eps) = equal x y eps := by
  obtain ⟨r, hr⟩ := g.extends_
  rw [← C114_equal r dx.isFl dy.isFl de.isFl h0 h1]
  unfold Ie.equal Fl.equal
  rw [Ie.scale_num hr fe (hx.weaken (by norm_num) (by norm_num)) (hy.weaken (by norm_num) (by norm_num)) he de, (Ie.sub_num' hr dx dy hx hy).1]
  rfl

/-- C142, scalar products: for components that are 0 or between 2^-400 and 2^400 in absolute value `Dot` is a finite number with the error of C118, or it is cut off
to 0 where C118 allows it. Missing: components outside the range. -/
theorem C142_dot_partial (g : Nearest) (fe : ℤ) (hn : n ≤ 2 ^ 20) (v w : Fin n → ℝ) (hv : ∀ i, Nrm (-400) 400 (v i)) (hw : ∀ i, Nrm (-400) 400 (w i)) :
    ∃ d, Ie.dot g fe (fun i => .num (v i)) (fun i => .num (w i)) = .num d ∧
      (|d - ∑ i, v i * w i| ≤ (n + 1) * 2 ^ (-52 : ℤ) * ∑ i, |v i * w i| ∨
        (d = 0 ∧ |∑ i, v i * w i| ≤ (n + 1) * 2 ^ (-52 : ℤ) * ∑ i, |v i * w i| + 2 * epsilon * min (maxAbs v) (maxAbs w))) := by
  obtain ⟨r, hr⟩ := g.extends_
  exact ⟨_, Ie.dot_num hr fe hn hv hw, C118_dot r ⟨v, true⟩ ⟨w, true⟩ (by omega)⟩

example : (∀ i, Nrm (-400) 400 ((![3, 0] : Fin 2 → ℝ) i)) ∧ ∀ i, Nrm (-400) 400 ((![-1, 2] : Fin 2 → ℝ) i) := by
  constructor <;> intro i <;> fin_cases i
  · exact Nrm.simple (by norm_num) (by norm_num) (by norm_num) (by norm_num)
  · exact Nrm.zero
  · exact Nrm.simple (by norm_num) (by norm_num) (by norm_num) (by norm_num)
  · exact Nrm.simple (by norm_num) (by norm_num) (by norm_num) (by norm_num)

/-- C142, boxes: the test of a point against a box is safe for all finite doubles. The proper test gives the answer of exact arithmetic; the tolerant one accepts every
point within epsilon of the box and no point further away than `epsilon (1 + 2^-52)` along some axis, also when a difference overflows or is subnormal. -/
theorem C142_box (g : Nearest) (lo hi p : Fin n → ℝ) (dl : ∀ i, IsFinite (lo i)) (dh : ∀ i, IsFinite (hi i)) (dp : ∀ i, IsFinite (p i)) :
    (Ie.interBP g (fun i => .num (lo i)) (fun i => .num (hi i)) (fun i => .num (p i)) true = true ↔ ∀ i, lo i < p i ∧ p i < hi i) ∧
    ((∀ i, lo i - epsilon ≤ p i ∧ p i ≤ hi i + epsilon) →
      Ie.interBP g (fun i => .num (lo i)) (fun i => .num (hi i)) (fun i => .num (p i)) false = true) ∧
    (Ie.interBP g (fun i => .num (lo i)) (fun i => .num (hi i)) (fun i => .num (p i)) false = true →
      ∀ i, lo i - epsilon * (1 + 2 ^ (-52 : ℤ)) ≤ p i ∧ p i ≤ hi i + epsilon * (1 + 2 ^ (-52 : ℤ))) := by
  have he2 := epsilon_lt
  norm_num at he2
  have he1 : epsilon < 2 ^ (1024 : ℤ) := lt_of_lt_of_le (by linarith) (one_le_zpow₀ one_le_two (by norm_num : (0 : ℤ) ≤ 1024))
  refine ⟨?_, fun h => ?_, fun h i => ?_⟩
  · simp [Ie.interBP, Ie.greater, Ie.less, Dbl.le]
  · simp only [Ie.interBP, Ie.greater, Ie.less, List.all_eq_true, List.mem_finRange, true_implies, Bool.false_eq_true, if_false]
    intro i
    rw [Ie.gt_false Ie.eps_dbl he1 (by linarith [(h i).1]), Ie.gt_false Ie.eps_dbl he1 (by linarith [(h i).2])]
    rfl
  · simp only [Ie.interBP, Ie.greater, Ie.less, List.all_eq_true, List.mem_finRange, true_implies, Bool.false_eq_true, if_false, Bool.not_eq_true',
      Bool.or_eq_false_iff] at h
    have h1 := Ie.of_gt_false (dl i).1 (dp i).1 epsilon_pos.le (h i).1
    have h2 := Ie.of_gt_false (dp i).1 (dh i).1 epsilon_pos.le (h i).2
    constructor <;> linarith

/-- C142, matrices: the comparison of two valid matrices of finite doubles accepts if no element differs by more than the tolerance and the parities agree, and when it
accepts, no element differs by more than the tolerance times `1 + 2^-52`. -/
theorem C142_matrix (g : Nearest) (a b : Fin n → Fin n → ℝ) (da : ∀ i j, IsFinite (a i j)) (db : ∀ i j, IsFinite (b i j)) (fa fb : Bool) (eps : ℝ)
    (de : IsFinite eps) (h0 : 0 < eps) :
    ((∀ i j, |a i j - b i j| ≤ eps) → fa = fb →
      Ie.matEqual g ⟨fun i j => .num (a i j), fa, true⟩ ⟨fun i j => .num (b i j), fb, true⟩ (.num eps) = some true) ∧
    (Ie.matEqual g ⟨fun i j => .num (a i j), fa, true⟩ ⟨fun i j => .num (b i j), fb, true⟩ (.num eps) = some true →
      fa = fb ∧ ∀ i j, |a i j - b i j| ≤ eps * (1 + 2 ^ (-52 : ℤ))) := by
  have h1 : eps < 2 ^ (1024 : ℤ) := (le_abs_self _).trans_lt de.2
  have hp : Dbl.lt (.num 0) (.num eps) = true := by simp [Dbl.lt, h0]
  unfold Ie.matEqual
  simp only [hp, Bool.true_eq_false, if_false, Bool.not_true, Bool.or_self, Bool.false_eq_true, List.all_eq_true, List.mem_finRange, true_implies,
    Bool.not_eq_true']
  constructor
  · intro h hf
    rw [if_pos fun i j => Ie.agt_false de.1 h1 (h i j), if_pos hf]
  · intro h
    split_ifs at h with hc hf
    · exact ⟨hf, fun i j => Ie.of_agt_false (da i j).1 (db i j).1 h0.le (hc i j)⟩
    · simp at h

/-- C142, quaternions: the comparison of two valid quaternions of finite doubles accepts if all parts of the difference or all parts of the sum are within the tolerance
(a quaternion and its negative are the same rotation), and when it accepts, one of the two holds with the tolerance times `1 + 2^-52`. -/
theorem C142_quaternion (g : Nearest) (w z : ℝ) (v x : Fin 3 → ℝ) (dw : IsFinite w) (dz : IsFinite z) (dv : ∀ i, IsFinite (v i)) (dx : ∀ i, IsFinite (x i)) (eps : ℝ)
    (de : IsFinite eps) (h0 : 0 < eps) :
    ((|w - z| ≤ eps ∧ ∀ i, |v i - x i| ≤ eps) ∨ (|w + z| ≤ eps ∧ ∀ i, |v i + x i| ≤ eps) →
      Ie.quatEqual g ⟨.num w, fun i => .num (v i), true⟩ ⟨.num z, fun i => .num (x i), true⟩ (.num eps) = some true) ∧
    (Ie.quatEqual g ⟨.num w, fun i => .num (v i), true⟩ ⟨.num z, fun i => .num (x i), true⟩ (.num eps) = some true →
      (|w - z| ≤ eps * (1 + 2 ^ (-52 : ℤ)) ∧ ∀ i, |v i - x i| ≤ eps * (1 + 2 ^ (-52 : ℤ))) ∨
      (|w + z| ≤ eps * (1 + 2 ^ (-52 : ℤ)) ∧ ∀ i, |v i + x i| ≤ eps * (1 + 2 ^ (-52 : ℤ)))) := by
  have h1 : eps < 2 ^ (1024 : ℤ) := (le_abs_self _).trans_lt de.2
  have hp : Dbl.lt (.num 0) (.num eps) = true := by simp [Dbl.lt, h0]
  unfold Ie.quatEqual
  simp only [hp, Bool.true_eq_false, if_false, Bool.not_true, Bool.or_self, Bool.false_eq_true, Ie.add_eq_sub, Ie.le_eq_not_lt, Bool.and_eq_true, List.all_eq_true,
    List.mem_finRange, true_implies, Bool.not_eq_true']
  constructor
  · rintro (⟨a, b⟩ | ⟨a, b⟩)
    · rw [if_pos ⟨Ie.agt_false de.1 h1 a, fun i => Ie.agt_false de.1 h1 (b i)⟩]
    · split_ifs with c d
      · rfl
      · simp only [Option.some.injEq, List.all_eq_true, List.mem_finRange, true_implies, Bool.not_eq_true']
        exact fun i => Ie.agt_false de.1 h1 (by rw [sub_neg_eq_add]; exact b i)
      · exact absurd (Ie.agt_false (g := g) (x := w) (y := -z) de.1 h1 (by rw [sub_neg_eq_add]; exact a)) d
  · intro h
    split_ifs at h with c d
    · exact Or.inl ⟨Ie.of_agt_false dw.1 dz.1 h0.le c.1, fun i => Ie.of_agt_false (dv i).1 (dx i).1 h0.le (c.2 i)⟩
    · simp only [Option.some.injEq, List.all_eq_true, List.mem_finRange, true_implies, Bool.not_eq_true'] at h
      right
      refine ⟨?_, fun i => ?_⟩
      · have := Ie.of_agt_false dw.1 dz.1.neg h0.le d
        rwa [sub_neg_eq_add] at this
      · have := Ie.of_agt_false (dv i).1 (dx i).1.neg h0.le (h i)
        rwa [sub_neg_eq_add] at this
    · simp at h

/-- Finite doubles near both ends of the range. -/
example : IsFinite (2 ^ (1023 : ℤ)) ∧ IsFinite (2 ^ (-1074 : ℤ)) ∧ IsFinite epsilon := by
  refine ⟨⟨IsDbl.zpow (by norm_num), ?_⟩, ⟨IsDbl.zpow (by norm_num), ?_⟩, Ie.eps_dbl, ?_⟩
  · rw [abs_of_pos (by positivity)]; exact zpow_lt_zpow_right₀ one_lt_two (by norm_num)
  · rw [abs_of_pos (by positivity)]; exact zpow_lt_zpow_right₀ one_lt_two (by norm_num)
  · rw [abs_of_pos epsilon_pos]
    have he2 := epsilon_lt
    norm_num at he2
    exact lt_of_lt_of_le (by linarith) (one_le_zpow₀ one_le_two (by norm_num : (0 : ℤ) ≤ 1024))

end WFMath
