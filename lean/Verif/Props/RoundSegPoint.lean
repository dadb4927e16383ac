/- Property theorems C134, continued: segment and point computed in doubles. -/
import Verif.Props.RoundSegBall

namespace WFMath
open Spec Matrix Rounding
variable {n : Nat}

namespace Fl

theorem sum_neg (r : Rounding 53) (f : Fin n → ℝ) : sum r (fun i => -f i) = -sum r f := by
  unfold sum
  have : ∀ (l : List (Fin n)) (s : ℝ), l.foldl (fun s i => r (s + -f i)) (-s) = -l.foldl (fun s i => r (s + f i)) s := by
    intro l
    induction l with
    | nil => intro s; rfl
    | cons i l ih =>
      intro s
      rw [List.foldl_cons, List.foldl_cons, ← ih, ← r.odd]
      congr 2; ring
  have h := this (List.finRange n) 0
  rwa [neg_zero] at h

/-- The inner product of the vectors from a point of a segment to its ends: all terms have one sign. -/
theorem anti_close (r : Rounding 53) {s : Seg n} {p : Pt n} (h : p.elem ∈ segSet s) :
    Close 53 (3 + n) (-sum r fun i => r ((ptSub r s.p1 p).elem i * (ptSub r s.p2 p).elem i)) (len (s.p1.elem - p.elem) * len (s.p2.elem - p.elem)) := by
  have hd := seg_mem_dot h
  rw [← sum_neg, ← neg_neg (len _ * len _), ← hd, show -((s.p1.elem - p.elem) ⬝ᵥ (s.p2.elem - p.elem)) = ∑ i, -((s.p1.elem i - p.elem i) * (s.p2.elem i - p.elem i)) by
    rw [Finset.sum_neg_distrib]; rfl]
  refine sum_close r (fun i => ?_) fun i => ?_
  · exact (((Close.round_self pos53 r (s.p1.elem i - p.elem i)).mul pos53 (Close.round_self pos53 r (s.p2.elem i - p.elem i))).round pos53 r).neg
  · obtain ⟨t, t0, t1, e⟩ := h
    have e' : p.elem i = (1 - t) * s.p1.elem i + t * s.p2.elem i := by rw [e]; rfl
    rw [e']
    nlinarith [mul_nonneg (mul_nonneg t0 (sub_nonneg.2 t1)) (sq_nonneg (s.p2.elem i - s.p1.elem i))]

theorem sqrMag_sub_close (r : Rounding 53) (a c : Pt n) : Close 53 (3 + n) (sqrMag r (ptSub r a c)) (len (a.elem - c.elem) ^ 2) := by
  have h1 := sqDistSum_close r a.elem c.elem
  rwa [show ∑ i, (a.elem i - c.elem i) * (a.elem i - c.elem i) = len (a.elem - c.elem) ^ 2 by rw [len_sq]; rfl] at h1

/-- Numbers of the same sign that come from one number by few roundings are found equal. -/
theorem equal_of_close (r : Rounding 53) {A B : ℝ} (h : Close 53 26 A B) : equal r A B epsilon = true := by
  have he := epsilon_pos
  have h1 := Close_err' h (by norm_num)
  have h2 := Close_err' (h.symm pos53) (by norm_num)
  have h3 := r.abs_le pos53 (A - B)
  have h4 := le_scaleEpsilon (x := A) (y := B) he.le
  unfold equal
  rw [decide_eq_true_eq]
  refine h3.trans (le_trans ?_ h4)
  rw [abs_sub_comm] at h2
  rw [u53]
  have k : (1 + 2 ^ (-53 : ℤ)) * (26 * 2 ^ (-52 : ℤ)) ≤ epsilon := by unfold epsilon; norm_num
  rcases min_choice |A| |B| with e | e <;> rw [e]
  · calc (1 + 2 ^ (-53 : ℤ)) * |A - B| ≤ (1 + 2 ^ (-53 : ℤ)) * ((26 : ℕ) * 2 ^ (-52 : ℤ) * |A|) := mul_le_mul_of_nonneg_left h2 (by positivity)
      _ = (1 + 2 ^ (-53 : ℤ)) * (26 * 2 ^ (-52 : ℤ)) * |A| := by push_cast; ring
      _ ≤ _ := mul_le_mul_of_nonneg_right k (abs_nonneg _)
  · calc (1 + 2 ^ (-53 : ℤ)) * |A - B| ≤ (1 + 2 ^ (-53 : ℤ)) * ((26 : ℕ) * 2 ^ (-52 : ℤ) * |B|) := mul_le_mul_of_nonneg_left h1 (by positivity)
      _ = (1 + 2 ^ (-53 : ℤ)) * (26 * 2 ^ (-52 : ℤ)) * |B| := by push_cast; ring
      _ ≤ _ := mul_le_mul_of_nonneg_right k (abs_nonneg _)

end Fl

/-- C134, segment and point: in the plane and in space the test computed in doubles accepts every point of the segment; the proper test accepts every point between
the ends, unless the segment is shorter than 5 epsilon, and rejects the ends. -/
theorem C134_point_on (r : Rounding 53) (s : Seg n) (p : Pt n) (hn : n ≤ 3) (h : p.elem ∈ segSet s) :
    Fl.interSP r s p false = true ∧
    (p.elem ≠ s.p1.elem → p.elem ≠ s.p2.elem → 5 * epsilon ≤ eucl s.p1.elem s.p2.elem → Fl.interSP r s p true = true) ∧
    (p.elem = s.p1.elem ∨ p.elem = s.p2.elem → Fl.interSP r s p true = false) := by
  have he := epsilon_pos
  have he2 := epsilon_lt
  norm_num at he2
  have hq := Fl.anti_close r h
  have h1 := Fl.sqrMag_sub_close r s.p1 p
  have h2 := Fl.sqrMag_sub_close r s.p2 p
  have l1 := len_nonneg (s.p1.elem - p.elem)
  have l2 := len_nonneg (s.p2.elem - p.elem)
  have hB := (h1.mul Fl.pos53 h2).round Fl.pos53 r
  have hdef : Fl.dot r (Fl.ptSub r s.p1 p) (Fl.ptSub r s.p2 p) = Fl.sum r (fun i => r ((Fl.ptSub r s.p1 p).elem i * (Fl.ptSub r s.p2 p).elem i)) ∨
      (Fl.dot r (Fl.ptSub r s.p1 p) (Fl.ptSub r s.p2 p) = 0 ∧ |Fl.sum r (fun i => r ((Fl.ptSub r s.p1 p).elem i * (Fl.ptSub r s.p2 p).elem i))| <
        scaleEpsilonArr (Fl.ptSub r s.p1 p).elem (Fl.ptSub r s.p2 p).elem epsilon) := by
    unfold Fl.dot
    simp only
    split_ifs with hc
    · exact .inl rfl
    · exact .inr ⟨rfl, not_le.1 hc⟩
  have hproj : Fl.dot r (Fl.ptSub r s.p1 p) (Fl.ptSub r s.p2 p) ≤ 0 := by
    have := hq.nonneg Fl.pos53 (mul_nonneg l1 l2)
    rcases hdef with e | ⟨e, -⟩ <;> rw [e]
    linarith
  have heq : Fl.equal r (r (Fl.dot r (Fl.ptSub r s.p1 p) (Fl.ptSub r s.p2 p) * Fl.dot r (Fl.ptSub r s.p1 p) (Fl.ptSub r s.p2 p)))
      (r (Fl.sqrMag r (Fl.ptSub r s.p1 p) * Fl.sqrMag r (Fl.ptSub r s.p2 p))) epsilon = true ∧
      (Fl.dot r (Fl.ptSub r s.p1 p) (Fl.ptSub r s.p2 p) = 0 → 5 * epsilon ≤ eucl s.p1.elem s.p2.elem → len (s.p1.elem - p.elem) * len (s.p2.elem - p.elem) = 0) := by
    rcases hdef with e | ⟨e, hsmall⟩
    · rw [e]
      refine ⟨Fl.equal_of_close r ?_, fun h0 _ => ?_⟩
      · have hA := (hq.mul Fl.pos53 hq).round Fl.pos53 r
        rw [neg_mul_neg] at hA
        rw [show len (s.p1.elem - p.elem) ^ 2 * len (s.p2.elem - p.elem) ^ 2 = len (s.p1.elem - p.elem) * len (s.p2.elem - p.elem) * (len (s.p1.elem - p.elem) * len (s.p2.elem - p.elem)) by ring] at hB
        exact (hA.trans Fl.pos53 (hB.symm Fl.pos53)).mono Fl.pos53 (by omega)
      · exact (hq.eq_zero Fl.pos53).1 (by rw [h0, neg_zero])
    · by_cases ha : len (s.p1.elem - p.elem) * len (s.p2.elem - p.elem) = 0
      · refine ⟨?_, fun _ _ => ha⟩
        have : len (s.p1.elem - p.elem) ^ 2 * len (s.p2.elem - p.elem) ^ 2 = 0 := by rw [← mul_pow, ha]; ring
        rw [this] at hB
        rw [e, mul_zero, r.zero, (hB.eq_zero Fl.pos53).2 rfl]
        exact Fl.equal_of_close r (Close.refl Fl.pos53 _ _)
      obtain ⟨n1, n2⟩ := mul_ne_zero_iff.1 ha
      have vne : ∀ a : Pt n, len (a.elem - p.elem) ≠ 0 → (Fl.ptSub r a p).elem ≠ 0 ∧ maxAbs (Fl.ptSub r a p).elem ≤ 101 / 100 * len (a.elem - p.elem) := fun a ha => by
        have hx := Fl.len_round r (a.elem - p.elem)
        change len ((Fl.ptSub r a p).elem - (a.elem - p.elem)) ≤ _ at hx
        have mx : maxAbs (Fl.ptSub r a p).elem ≤ len (Fl.ptSub r a p).elem := maxAbs_le (len_nonneg _) fun i => abs_le_len _ i
        have t := len_add_le ((Fl.ptSub r a p).elem - (a.elem - p.elem)) (a.elem - p.elem)
        have h0 := len_nonneg (a.elem - p.elem)
        rw [sub_add_cancel] at t
        have hw : (2 : ℝ) ^ (-53 : ℤ) ≤ 1 / 100 := by norm_num
        generalize (2 : ℝ) ^ (-53 : ℤ) = w at *
        have := mul_le_mul_of_nonneg_right hw h0
        refine ⟨fun hz => ?_, by linarith⟩
        rw [hz, zero_sub, len_neg] at hx
        have : 0 < len (a.elem - p.elem) := lt_of_le_of_ne h0 (Ne.symm ha)
        linarith
      obtain ⟨v1, m1⟩ := vne s.p1 n1
      obtain ⟨v2, m2⟩ := vne s.p2 n2
      have hsc := hsmall.trans_le (scaleEpsilonArr_le he.le v1 v2)
      have hqe := Fl.Close_err' hq (by omega)
      rw [← abs_neg] at hsc
      generalize -Fl.sum r (fun i => r ((Fl.ptSub r s.p1 p).elem i * (Fl.ptSub r s.p2 p).elem i)) = q at *
      have hseg : eucl s.p1.elem s.p2.elem ≤ len (s.p1.elem - p.elem) + len (s.p2.elem - p.elem) := by
        have := len_add_le (s.p1.elem - p.elem) (-(s.p2.elem - p.elem))
        rw [len_neg] at this
        rw [eucl_eq_len, show s.p1.elem - s.p2.elem = s.p1.elem - p.elem + -(s.p2.elem - p.elem) by abel]
        exact this
      have p1 : 0 < len (s.p1.elem - p.elem) := lt_of_le_of_ne l1 (Ne.symm n1)
      have p2 : 0 < len (s.p2.elem - p.elem) := lt_of_le_of_ne l2 (Ne.symm n2)
      have hBe := Fl.Close_err' hB (by omega)
      have hk : ((3 + n : ℕ) : ℝ) * 2 ^ (-52 : ℤ) ≤ 1 / 100 := by
        have : ((3 + n : ℕ) : ℝ) ≤ 6 := by exact_mod_cast (by omega : 3 + n ≤ 6)
        norm_num at this ⊢; linarith
      have hk2 : ((3 + n + (3 + n) + 1 : ℕ) : ℝ) * 2 ^ (-52 : ℤ) ≤ 1 / 100 := by
        have : ((3 + n + (3 + n) + 1 : ℕ) : ℝ) ≤ 13 := by exact_mod_cast (by omega : 3 + n + (3 + n) + 1 ≤ 13)
        norm_num at this ⊢; linarith
      generalize len (s.p1.elem - p.elem) = x at *
      generalize len (s.p2.elem - p.elem) = y at *
      rw [abs_of_pos (mul_pos p1 p2)] at hqe
      rw [abs_of_pos (by positivity : 0 < x ^ 2 * y ^ 2)] at hBe
      have q1 : 99 / 100 * (x * y) ≤ |q| := by
        have a1 := neg_abs_le (q - x * y)
        generalize ((3 + n : ℕ) : ℝ) * 2 ^ (-52 : ℤ) = w at *
        have a2 := mul_le_mul_of_nonneg_right hk (mul_pos p1 p2).le
        linarith [le_abs_self q]
      have hx : x < 5 / 2 * epsilon := by
        have : min (maxAbs (Fl.ptSub r s.p1 p).elem) (maxAbs (Fl.ptSub r s.p2 p).elem) ≤ 101 / 100 * y := (min_le_right _ _).trans m2
        have := mul_le_mul_of_nonneg_left this (by linarith : 0 ≤ 2 * epsilon)
        by_contra hc
        push Not at hc
        nlinarith [mul_le_mul_of_nonneg_right hc p2.le, mul_pos he p2]
      have hy : y < 5 / 2 * epsilon := by
        have : min (maxAbs (Fl.ptSub r s.p1 p).elem) (maxAbs (Fl.ptSub r s.p2 p).elem) ≤ 101 / 100 * x := (min_le_left _ _).trans m1
        have := mul_le_mul_of_nonneg_left this (by linarith : 0 ≤ 2 * epsilon)
        by_contra hc
        push Not at hc
        nlinarith [mul_le_mul_of_nonneg_right hc p1.le, mul_pos he p1]
      refine ⟨?_, fun _ hl => by linarith⟩
      rw [e, mul_zero, r.zero]
      generalize r (Fl.sqrMag r (Fl.ptSub r s.p1 p) * Fl.sqrMag r (Fl.ptSub r s.p2 p)) = B at *
      unfold Fl.equal
      rw [decide_eq_true_eq, scaleEpsilon_zero (Or.inl rfl)]
      generalize ((3 + n + (3 + n) + 1 : ℕ) : ℝ) * 2 ^ (-52 : ℤ) = w at *
      have a1 := mul_le_mul_of_nonneg_right hk2 (by positivity : 0 ≤ x ^ 2 * y ^ 2)
      have a2 := abs_sub_abs_le_abs_sub B (x ^ 2 * y ^ 2)
      rw [abs_of_pos (by positivity : 0 < x ^ 2 * y ^ 2)] at a2
      have a3 := r.abs_le Fl.pos53 (0 - B)
      rw [zero_sub, abs_neg, Fl.u53] at a3
      have a4 : (2 : ℝ) ^ (-53 : ℤ) ≤ 1 / 100 := by norm_num
      generalize (2 : ℝ) ^ (-53 : ℤ) = w' at *
      have a5 := mul_le_mul_of_nonneg_right a4 (abs_nonneg B)
      have e1 : x ≤ 1 / 10 := by linarith
      have e2 : y ≤ 1 / 10 := by linarith
      have a6 : x ^ 2 * y ^ 2 ≤ epsilon / 4 := by
        have : x * y ≤ 1 / 100 := by nlinarith
        have : x * y ≤ epsilon / 4 := by nlinarith
        nlinarith [mul_pos p1 p2]
      rw [zero_sub]
      linarith
  refine ⟨?_, fun n1 n2 hlen => ?_, fun hc => ?_⟩
  · unfold Fl.interSP
    simp only
    rw [if_neg (by
      unfold Fl.greater
      rw [if_neg (by simp), decide_eq_true_eq, sub_zero, not_lt]
      exact (r.nonpos hproj).trans he.le)]
    exact heq.1
  · have hne : Fl.dot r (Fl.ptSub r s.p1 p) (Fl.ptSub r s.p2 p) ≠ 0 := fun hc => by
      rcases mul_eq_zero.1 (heq.2 hc hlen) with h0 | h0
      · exact n1 (sub_eq_zero.1 (len_eq_zero.1 h0)).symm
      · exact n2 (sub_eq_zero.1 (len_eq_zero.1 h0)).symm
    unfold Fl.interSP
    simp only
    rw [if_neg (by
      unfold Fl.greater
      rw [if_pos rfl, decide_eq_true_eq, not_le]
      exact lt_of_le_of_ne hproj hne)]
    exact heq.1
  · have hz : Fl.dot r (Fl.ptSub r s.p1 p) (Fl.ptSub r s.p2 p) = 0 := by
      have h0 : len (s.p1.elem - p.elem) * len (s.p2.elem - p.elem) = 0 := by
        rcases hc with hc | hc <;> rw [hc, sub_self, len_zero] <;> ring
      rw [h0] at hq
      have := (hq.eq_zero Fl.pos53).2 rfl
      rcases hdef with e | ⟨e, -⟩ <;> rw [e]
      linarith
    unfold Fl.interSP
    simp only
    rw [if_pos (by
      unfold Fl.greater
      rw [if_pos rfl, decide_eq_true_eq, hz])]

set_option maxHeartbeats 1000000 in
/-- What the computed comparison of the squared inner product with the product of the squared distances says of the exact ones. -/
theorem Fl.interSP_bound (r : Rounding 53) (s : Seg n) (p : Pt n) (hn : n ≤ 50)
    (h0 : Fl.dot r (Fl.ptSub r s.p1 p) (Fl.ptSub r s.p2 p) ≠ 0)
    (heq : Fl.equal r (r (Fl.dot r (Fl.ptSub r s.p1 p) (Fl.ptSub r s.p2 p) * Fl.dot r (Fl.ptSub r s.p1 p) (Fl.ptSub r s.p2 p)))
      (r (Fl.sqrMag r (Fl.ptSub r s.p1 p) * Fl.sqrMag r (Fl.ptSub r s.p2 p))) epsilon = true) :
    0 < len (s.p1.elem - p.elem) * len (s.p2.elem - p.elem) ∧
    |Fl.dot r (Fl.ptSub r s.p1 p) (Fl.ptSub r s.p2 p) - (s.p1.elem - p.elem) ⬝ᵥ (s.p2.elem - p.elem)| ≤ 1 / 100 * (len (s.p1.elem - p.elem) * len (s.p2.elem - p.elem)) ∧
    99 / 100 * (len (s.p1.elem - p.elem) * len (s.p2.elem - p.elem)) ≤ |Fl.dot r (Fl.ptSub r s.p1 p) (Fl.ptSub r s.p2 p)| ∧
    len (s.p1.elem - p.elem) ^ 2 * len (s.p2.elem - p.elem) ^ 2 - ((s.p1.elem - p.elem) ⬝ᵥ (s.p2.elem - p.elem)) ^ 2 ≤
      20 * epsilon * (len (s.p1.elem - p.elem) ^ 2 * len (s.p2.elem - p.elem) ^ 2) := by
  have he := epsilon_pos
  have hd : |Fl.dot r (Fl.ptSub r s.p1 p) (Fl.ptSub r s.p2 p) - (s.p1.elem - p.elem) ⬝ᵥ (s.p2.elem - p.elem)| ≤ 2 ^ (-46 : ℤ) * (len (s.p1.elem - p.elem) * len (s.p2.elem - p.elem)) := by
    rcases Fl.proj_err r hn s.p1 s.p2 p with h | ⟨h, -⟩
    · exact h
    · exact absurd h h0
  have hD := abs_dot_le_len (s.p1.elem - p.elem) (s.p2.elem - p.elem)
  have h1 := Fl.sqr_err r hn s.p1 p
  have h2 := Fl.sqr_err r hn s.p2 p
  have l1 := len_nonneg (s.p1.elem - p.elem)
  have l2 := len_nonneg (s.p2.elem - p.elem)
  have hA := r.err Fl.pos53 (Fl.dot r (Fl.ptSub r s.p1 p) (Fl.ptSub r s.p2 p) * Fl.dot r (Fl.ptSub r s.p1 p) (Fl.ptSub r s.p2 p))
  have hB := r.err Fl.pos53 (Fl.sqrMag r (Fl.ptSub r s.p1 p) * Fl.sqrMag r (Fl.ptSub r s.p2 p))
  have hAne : r (Fl.dot r (Fl.ptSub r s.p1 p) (Fl.ptSub r s.p2 p) * Fl.dot r (Fl.ptSub r s.p1 p) (Fl.ptSub r s.p2 p)) ≠ 0 :=
    ((Close.round_self Fl.pos53 r _).eq_zero Fl.pos53).not.2 (mul_self_ne_zero.2 h0)
  unfold Fl.equal at heq
  rw [decide_eq_true_eq] at heq
  generalize Fl.sqrMag r (Fl.ptSub r s.p1 p) = S1 at *
  generalize Fl.sqrMag r (Fl.ptSub r s.p2 p) = S2 at *
  generalize Fl.dot r (Fl.ptSub r s.p1 p) (Fl.ptSub r s.p2 p) = d at *
  generalize (s.p1.elem - p.elem) ⬝ᵥ (s.p2.elem - p.elem) = D at *
  generalize len (s.p1.elem - p.elem) = x at *
  generalize len (s.p2.elem - p.elem) = y at *
  have hL : 0 < x * y := by
    refine lt_of_le_of_ne (mul_nonneg l1 l2) fun hc => h0 ?_
    rw [← hc, mul_zero] at hd
    rw [← hc] at hD
    have : D = 0 := abs_nonpos_iff.1 hD
    rw [this, sub_zero] at hd
    exact abs_nonpos_iff.1 hd
  have x0 : 0 < x := lt_of_le_of_ne l1 fun hc => by rw [← hc, zero_mul] at hL; exact lt_irrefl _ hL
  have y0 : 0 < y := lt_of_le_of_ne l2 fun hc => by rw [← hc, mul_zero] at hL; exact lt_irrefl _ hL
  have hC := r.err Fl.pos53 (r (d * d) - r (S1 * S2))
  rw [Fl.u53] at hA hB hC
  have ew : epsilon = 60 * 2 ^ (-53 : ℤ) := by unfold epsilon; norm_num
  rw [show (2 : ℝ) ^ (-46 : ℤ) = 128 * 2 ^ (-53 : ℤ) by norm_num] at hd h1 h2
  have hw : (2 : ℝ) ^ (-53 : ℤ) ≤ 1 / 1000000 := by norm_num
  have hw0 : (0 : ℝ) < 2 ^ (-53 : ℤ) := by positivity
  generalize (2 : ℝ) ^ (-53 : ℤ) = w at *
  have hS1 : (1 - 128 * w) * x ^ 2 ≤ S1 := by linarith [neg_abs_le (S1 - x ^ 2)]
  have hS2 : (1 - 128 * w) * y ^ 2 ≤ S2 := by linarith [neg_abs_le (S2 - y ^ 2)]
  have hSS : (1 - 256 * w) * (x * y) ^ 2 ≤ S1 * S2 := by
    have := mul_le_mul hS1 hS2 (mul_nonneg (by linarith) (sq_nonneg _)) (le_trans (mul_nonneg (by linarith) (sq_nonneg _)) hS1)
    refine le_trans ?_ this
    have := mul_nonneg (sq_nonneg (128 * w)) (sq_nonneg (x * y))
    nlinarith
  have hSp : 0 < S1 * S2 := lt_of_lt_of_le (mul_pos (by linarith) (by positivity)) hSS
  have hBp : (1 - w) * (S1 * S2) ≤ r (S1 * S2) := by
    rw [abs_of_pos hSp] at hB; linarith [neg_abs_le (r (S1 * S2) - S1 * S2)]
  have hB0 : 0 < r (S1 * S2) := lt_of_lt_of_le (mul_pos (by linarith) hSp) hBp
  have hs := scaleEpsilon_le (x := r (d * d)) (y := r (S1 * S2)) he.le hAne hB0.ne'
  have hs2 : min |r (d * d)| |r (S1 * S2)| ≤ r (S1 * S2) := (min_le_right _ _).trans (abs_of_pos hB0).le
  have hs3 := mul_le_mul_of_nonneg_left hs2 (by linarith : 0 ≤ 2 * epsilon)
  have hAd : r (d * d) ≤ (1 + w) * d ^ 2 := by
    rw [abs_of_nonneg (mul_self_nonneg d)] at hA; nlinarith [le_abs_self (r (d * d) - d * d)]
  generalize r (d * d) = A at *
  generalize r (S1 * S2) = B at *
  have hAB : (1 - 2 * epsilon - w) * B ≤ A := by
    have t1 : |A - B| ≤ |r (A - B) - (A - B)| + |r (A - B)| := by
      have := abs_sub_abs_le_abs_sub (A - B) (r (A - B)); rw [abs_sub_comm (A - B) (r (A - B))] at this; linarith
    have t2 := neg_abs_le (A - B)
    have t3 : (1 - w) * |A - B| ≤ 2 * epsilon * B := by linarith
    rw [ew] at t3 ⊢
    by_contra hc
    push Not at hc
    have t4 : (120 * w + w) * B < |A - B| := by linarith
    have t5 : (1 - w) * ((120 * w + w) * B) < (1 - w) * |A - B| := mul_lt_mul_of_pos_left t4 (by linarith)
    nlinarith [mul_pos hw0 hB0, mul_pos (mul_pos hw0 hw0) hB0, mul_le_mul_of_nonneg_right hw (mul_pos hw0 hB0).le]
  have hd2 : (1 - 400 * w) * (x * y) ^ 2 ≤ d ^ 2 := by
    rw [ew] at hAB
    have hP : 0 < (x * y) ^ 2 := by positivity
    generalize (x * y) ^ 2 = P at *
    generalize S1 * S2 = Q at *
    generalize d ^ 2 = E at *
    have q1 : (1 - 121 * w) * ((1 - w) * ((1 - 256 * w) * P)) ≤ (1 + w) * E := by
      have a1 : (1 - w) * ((1 - 256 * w) * P) ≤ B := (mul_le_mul_of_nonneg_left hSS (by linarith)).trans hBp
      have a2 := mul_le_mul_of_nonneg_left a1 (by linarith : 0 ≤ 1 - 121 * w)
      linarith
    have q2 : (1 + w) * ((1 - 400 * w) * P) ≤ (1 - 121 * w) * ((1 - w) * ((1 - 256 * w) * P)) := by
      have : (1 + w) * (1 - 400 * w) ≤ (1 - 121 * w) * ((1 - w) * (1 - 256 * w)) := by nlinarith [mul_pos hw0 hw0]
      nlinarith [mul_le_mul_of_nonneg_right this hP.le]
    exact le_of_mul_le_mul_left (q2.trans q1) (by linarith)
  have hdl : (1 - 400 * w) * (x * y) ≤ |d| := by
    refine abs_le_of_sq_le_sq' ?_ (abs_nonneg _) |>.2
    rw [sq_abs]
    refine le_trans ?_ hd2
    rw [mul_pow]
    refine mul_le_mul_of_nonneg_right ?_ (sq_nonneg _)
    nlinarith
  have hDl : (1 - 528 * w) * (x * y) ≤ |D| := by
    have := abs_sub_abs_le_abs_sub d D
    linarith
  refine ⟨hL, hd.trans (mul_le_mul_of_nonneg_right (by linarith) hL.le), le_trans (mul_le_mul_of_nonneg_right (by linarith) hL.le) hdl, ?_⟩
  rw [ew]
  have hD2 : ((1 - 528 * w) * (x * y)) ^ 2 ≤ D ^ 2 := by
    rw [← sq_abs D]; exact pow_le_pow_left₀ (mul_nonneg (by linarith) hL.le) hDl 2
  rw [mul_pow] at hD2
  have hP : 0 < (x * y) ^ 2 := by positivity
  rw [show x ^ 2 * y ^ 2 = (x * y) ^ 2 by ring]
  generalize (x * y) ^ 2 = P at *
  nlinarith [mul_pos hw0 hP, mul_nonneg (sq_nonneg w) hP.le]

/-- C134, what the proper test accepts: a point within `√(20 ε)` times the segment's length of a point of the segment. -/
theorem C134_point_near (r : Rounding 53) (s : Seg n) (p : Pt n) (hn : n ≤ 50) (h : Fl.interSP r s p true = true) :
    ∃ x ∈ segSet s, eucl p.elem x ≤ Real.sqrt (20 * epsilon) * eucl s.p1.elem s.p2.elem := by
  have he := epsilon_pos
  unfold Fl.interSP at h
  simp only at h
  split_ifs at h with hg
  unfold Fl.greater at hg
  rw [if_pos rfl, decide_eq_true_eq, not_le] at hg
  obtain ⟨hL, hd, hl, hb⟩ := Fl.interSP_bound r s p hn hg.ne h
  rw [abs_of_neg hg] at hl
  have hD : (s.p1.elem - p.elem) ⬝ᵥ (s.p2.elem - p.elem) ≤ 0 := by linarith [neg_abs_le (Fl.dot r (Fl.ptSub r s.p1 p) (Fl.ptSub r s.p2 p) - (s.p1.elem - p.elem) ⬝ᵥ (s.p2.elem - p.elem))]
  obtain ⟨t, t0, t1, ht⟩ := foot hD (show 0 ≤ 20 * epsilon by linarith) hb
  refine ⟨_, ⟨t, t0, t1, rfl⟩, ?_⟩
  have h0 : 0 ≤ Real.sqrt (20 * epsilon) * eucl s.p1.elem s.p2.elem := mul_nonneg (Real.sqrt_nonneg _) (eucl_nonneg _ _)
  rw [← pow_le_pow_iff_left₀ (eucl_nonneg _ _) h0 (two_ne_zero), mul_pow, Real.sq_sqrt (by linarith)]
  exact ht

/-- C134, what the tolerant test accepts: such a point, or one whose distances to the two ends have a product of at most `√(2 ε)`. -/
theorem C134_point_near_tolerant (r : Rounding 53) (s : Seg n) (p : Pt n) (hn : n ≤ 50) (h : Fl.interSP r s p false = true) :
    (∃ x ∈ segSet s, eucl p.elem x ≤ Real.sqrt (20 * epsilon) * eucl s.p1.elem s.p2.elem) ∨
    eucl p.elem s.p1.elem * eucl p.elem s.p2.elem ≤ Real.sqrt (2 * epsilon) := by
  have he := epsilon_pos
  have he2 := epsilon_lt
  norm_num at he2
  have e1 : eucl p.elem s.p1.elem = len (s.p1.elem - p.elem) := by rw [eucl_comm, eucl_eq_len]
  have e2 : eucl p.elem s.p2.elem = len (s.p2.elem - p.elem) := by rw [eucl_comm, eucl_eq_len]
  rw [e1, e2]
  unfold Fl.interSP at h
  simp only at h
  split_ifs at h with hg
  unfold Fl.greater at hg
  rw [if_neg (by simp), decide_eq_true_eq, sub_zero, not_lt] at hg
  have l1 := len_nonneg (s.p1.elem - p.elem)
  have l2 := len_nonneg (s.p2.elem - p.elem)
  have small : len (s.p1.elem - p.elem) ^ 2 * len (s.p2.elem - p.elem) ^ 2 ≤ 2 * epsilon →
      len (s.p1.elem - p.elem) * len (s.p2.elem - p.elem) ≤ Real.sqrt (2 * epsilon) := fun h => by
    apply Real.le_sqrt_of_sq_le; rw [mul_pow]; exact h
  by_cases h0 : Fl.dot r (Fl.ptSub r s.p1 p) (Fl.ptSub r s.p2 p) = 0
  · refine .inr (small ?_)
    rw [h0, mul_zero, r.zero] at h
    unfold Fl.equal at h
    rw [decide_eq_true_eq, scaleEpsilon_zero (Or.inl rfl), zero_sub] at h
    have hB := (((Fl.sqrMag_sub_close r s.p1 p).mul Fl.pos53 (Fl.sqrMag_sub_close r s.p2 p)).round Fl.pos53 r).neg.round Fl.pos53 r
    have hB' := Fl.Close_err' (hB.symm Fl.pos53) (by omega)
    generalize r (-r (Fl.sqrMag r (Fl.ptSub r s.p1 p) * Fl.sqrMag r (Fl.ptSub r s.p2 p))) = B at *
    have hk2 : ((3 + n + (3 + n) + 1 + 1 : ℕ) : ℝ) * 2 ^ (-52 : ℤ) ≤ 1 / 100 := by
      have : ((3 + n + (3 + n) + 1 + 1 : ℕ) : ℝ) ≤ 108 := by exact_mod_cast (by omega : 3 + n + (3 + n) + 1 + 1 ≤ 108)
      norm_num at this ⊢; linarith
    generalize ((3 + n + (3 + n) + 1 + 1 : ℕ) : ℝ) * 2 ^ (-52 : ℤ) = w at *
    have a1 := mul_le_mul_of_nonneg_right hk2 (abs_nonneg B)
    linarith [neg_abs_le B, neg_abs_le (-(len (s.p1.elem - p.elem) ^ 2 * len (s.p2.elem - p.elem) ^ 2) - B)]
  obtain ⟨hL, hd, hl, hb⟩ := Fl.interSP_bound r s p hn h0 h
  rcases le_or_gt ((s.p1.elem - p.elem) ⬝ᵥ (s.p2.elem - p.elem)) 0 with hD | hD
  · left
    obtain ⟨t, t0, t1, ht⟩ := foot hD (show 0 ≤ 20 * epsilon by linarith) hb
    refine ⟨_, ⟨t, t0, t1, rfl⟩, ?_⟩
    have h0 : 0 ≤ Real.sqrt (20 * epsilon) * eucl s.p1.elem s.p2.elem := mul_nonneg (Real.sqrt_nonneg _) (eucl_nonneg _ _)
    rw [← pow_le_pow_iff_left₀ (eucl_nonneg _ _) h0 (two_ne_zero), mul_pow, Real.sq_sqrt (by linarith)]
    exact ht
  · refine .inr (small ?_)
    have hr := r.err Fl.pos53 (Fl.dot r (Fl.ptSub r s.p1 p) (Fl.ptSub r s.p2 p))
    rw [Fl.u53] at hr
    have hw : (2 : ℝ) ^ (-53 : ℤ) ≤ 1 / 100 := by norm_num
    rw [show len (s.p1.elem - p.elem) ^ 2 * len (s.p2.elem - p.elem) ^ 2 = (len (s.p1.elem - p.elem) * len (s.p2.elem - p.elem)) ^ 2 by ring]
    generalize len (s.p1.elem - p.elem) * len (s.p2.elem - p.elem) = L at *
    generalize Fl.dot r (Fl.ptSub r s.p1 p) (Fl.ptSub r s.p2 p) = d at *
    generalize (2 : ℝ) ^ (-53 : ℤ) = w at *
    have dp : 0 ≤ d := by
      by_contra hc
      push Not at hc
      rw [abs_of_neg hc] at hl
      linarith [neg_abs_le (d - (s.p1.elem - p.elem) ⬝ᵥ (s.p2.elem - p.elem))]
    rw [abs_of_nonneg dp] at hl hr
    have a1 := mul_le_mul_of_nonneg_right hw dp
    have hLe : L ≤ 11 / 10 * epsilon := by linarith [neg_abs_le (r d - d)]
    nlinarith

end WFMath
