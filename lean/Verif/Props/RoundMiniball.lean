/- Property theorems C150: the bounding sphere, computed with rounding. -/
import Verif.Lemmas.RoundMiniball
import Verif.Props.Miniball
import Verif.Props.RoundCompare
import Verif.Props.RoundMatrix

namespace WFMath
open Spec Matrix Rounding
variable {n : Nat}

/-- What the final check of `BoundingSphere` says of one point. -/
theorem Fl.excess_spec (r : Rounding 53) (hn : n ≤ 3) {c p : Fin n → ℝ} {q : ℝ} (hq : 0 < q) :
    (Fl.Miniball.excessOf r c q p < epsilon * q → eucl p c ≤ (1 + epsilon) * r (Real.sqrt q)) ∧
    (|Fl.Miniball.excessOf r c q p| < epsilon * q → (1 - epsilon) * r (Real.sqrt q) ≤ eucl p c) := by
  have hu0 : 0 < u 53 := u_pos
  have hu : u 53 ≤ 1 / 1000000 := by rw [Fl.u53]; norm_num
  have he := Fl.Miniball.excessOf_err r hn c q p
  have hE : epsilon = 60 * u 53 := by rw [Fl.u53]; unfold epsilon; norm_num
  rw [abs_of_pos hq, _root_.abs_le] at he
  have hd0 := Miniball.dsq_nonneg p c
  have hd := dsq_eucl p c
  have hec : 0 ≤ eucl p c := by rw [eucl_eq_len]; exact len_nonneg _
  have hs := Real.sq_sqrt hq.le
  have hs0 := Real.sqrt_pos.2 hq
  have hr := r.err Fl.pos53 (Real.sqrt q)
  rw [abs_of_pos hs0, _root_.abs_le] at hr
  generalize r (Real.sqrt q) = R at *
  generalize Real.sqrt q = S at *
  generalize eucl p c = d at *
  rw [hE]
  have huq := mul_pos hu0 hq
  have huS := mul_pos hu0 hs0
  constructor
  · intro h
    have h1 : d ^ 2 ≤ (1 + 110 * u 53) * q := by
      have : Miniball.dsq p c * (1 - 24 * u 53) ≤ (1 + 84 * u 53) * q := by linarith
      rw [← hd]
      by_contra hc
      push Not at hc
      have := mul_lt_mul_of_pos_right hc (show 0 < 1 - 24 * u 53 by linarith)
      nlinarith
    have h2 : d ≤ (1 + 56 * u 53) * S := by
      refine (abs_le_of_sq_le_sq' (a := d) ?_ (by positivity)).2
      rw [mul_pow, hs]
      refine h1.trans (mul_le_mul_of_nonneg_right ?_ hq.le)
      nlinarith
    have h3 : (1 - u 53) * S ≤ R := by linarith
    have h4 := mul_le_mul_of_nonneg_left h3 (show 0 ≤ 1 + 60 * u 53 by linarith)
    refine h2.trans (le_trans ?_ h4)
    rw [← mul_assoc]
    refine mul_le_mul_of_nonneg_right ?_ hs0.le
    nlinarith
  · intro h
    have h' := (abs_lt.1 h).1
    have h1 : (1 - 110 * u 53) * q ≤ d ^ 2 := by
      have : (1 - 84 * u 53) * q ≤ Miniball.dsq p c * (1 + 24 * u 53) := by linarith
      rw [← hd]
      by_contra hc
      push Not at hc
      have := mul_lt_mul_of_pos_right hc (show 0 < 1 + 24 * u 53 by linarith)
      nlinarith
    have h2 : (1 - 56 * u 53) * S ≤ d := by
      refine (abs_le_of_sq_le_sq' (a := (1 - 56 * u 53) * S) ?_ hec).2
      rw [mul_pow, hs]
      refine le_trans (mul_le_mul_of_nonneg_right ?_ hq.le) h1
      nlinarith
    have h3 : R ≤ (1 + u 53) * S := by linarith
    have h4 := mul_le_mul_of_nonneg_left h3 (show 0 ≤ 1 - 60 * u 53 by linarith)
    refine h4.trans (le_trans ?_ h2)
    rw [← mul_assoc]
    refine mul_le_mul_of_nonneg_right ?_ hs0.le
    nlinarith

/-- What a returned ball says of the state it was made from. -/
theorem Fl.sphere_state {r : Rounding 53} {fuel : Nat} {l : List (Pt n)} {b : Ball n} (h : Fl.boundingSphere r true fuel l = some b) :
    ∃ st, Fl.Miniball.build r fuel (l.map Pt.elem) = some st ∧ 0 < st.B.curR ∧ Fl.Miniball.maxError r st < epsilon * st.B.curR ∧
      b = ⟨⟨st.B.curC, l.all Pt.valid⟩, r (Real.sqrt st.B.curR)⟩ := by
  unfold Fl.boundingSphere at h
  match hb : Fl.Miniball.build r fuel (l.map Pt.elem) with
  | none => rw [hb] at h; simp at h
  | some st =>
    rw [hb] at h
    simp only at h
    split_ifs at h with hc
    obtain ⟨h0, -⟩ := Fl.Miniball.build_any r hb
    have hc' : st.s = st.B.s ∧ st.B.curR ≠ 0 ∧ r (Fl.Miniball.maxError r st / st.B.curR) < epsilon := by
      rw [Bool.true_and, Bool.not_eq_true', Bool.not_eq_false, Bool.and_eq_true, beq_iff_eq, decide_eq_true_eq] at hc
      exact hc
    have hpos : 0 < st.B.curR := lt_of_le_of_ne h0 (Ne.symm hc'.2.1)
    refine ⟨st, rfl, hpos, ?_, ?_⟩
    · rw [← div_lt_iff₀ hpos]
      by_contra hn
      push Not at hn
      have := r.mono hn
      rw [r.of_fl isFl_epsilon] at this
      exact absurd hc'.2.2 (not_lt.2 this)
    · simp only [Option.some.injEq] at h
      rw [← h]
      unfold Ball.mk'
      rw [if_neg (not_lt.2 (Fl.Miniball.round_nonneg r (Real.sqrt_nonneg _)))]

/-- C150: a ball that `BoundingSphere` returns in doubles, with the assertions compiled in, contains every point of the list up to a relative error of epsilon in the radius. -/
theorem C150_encloses (r : Rounding 53) (hn : n ≤ 3) (fuel : Nat) (l : List (Pt n)) (b : Ball n) (h : Fl.boundingSphere r true fuel l = some b) (p : Pt n) (hp : p ∈ l) :
    eucl p.elem b.center.elem ≤ (1 + epsilon) * b.radius ∧ 0 < b.radius ∧ b.center.valid = l.all Pt.valid := by
  obtain ⟨st, hb, hpos, hm, rfl⟩ := Fl.sphere_state h
  obtain ⟨-, hperm, -⟩ := Fl.Miniball.build_any r hb
  have he := (Fl.Miniball.maxError_ge r st).1 p.elem (hperm.mem_iff.2 (List.mem_map_of_mem hp))
  refine ⟨(Fl.excess_spec r hn hpos).1 (lt_of_le_of_lt he hm), ?_, rfl⟩
  have := r.err Fl.pos53 (Real.sqrt st.B.curR)
  have hs := Real.sqrt_pos.2 hpos
  rw [abs_of_pos hs, _root_.abs_le] at this
  show 0 < r (Real.sqrt st.B.curR)
  have h2 : u 53 * Real.sqrt st.B.curR ≤ 1 / 2 * Real.sqrt st.B.curR := mul_le_mul_of_nonneg_right (by rw [Fl.u53]; norm_num) hs.le
  linarith

/-- C150: the ball is not too large for its center: some point of the list is on its surface up to a relative error of epsilon. -/
theorem C150_touches (r : Rounding 53) (hn : n ≤ 3) (fuel : Nat) (l : List (Pt n)) (b : Ball n) (h : Fl.boundingSphere r true fuel l = some b) :
    ∃ p ∈ l, (1 - epsilon) * b.radius ≤ eucl p.elem b.center.elem := by
  obtain ⟨st, hb, hpos, hm, rfl⟩ := Fl.sphere_state h
  obtain ⟨-, hperm, hs, hf⟩ := Fl.Miniball.build_any r hb
  obtain ⟨x, xs, hx⟩ := List.exists_cons_of_ne_nil hf
  obtain ⟨k, hk⟩ : ∃ k, st.s = k + 1 := ⟨st.s - 1, by omega⟩
  have hmem : x ∈ (st.front ++ st.back).take st.s := by rw [hx, hk]; simp
  have he := (Fl.Miniball.maxError_ge r st).2 x hmem
  obtain ⟨p, hp, rfl⟩ := List.mem_map.1 (hperm.mem_iff.1 (List.mem_of_mem_take hmem))
  exact ⟨p, hp, (Fl.excess_spec r hn hpos).2 (lt_of_le_of_lt he hm)⟩

/-- C150: no ball with the same center that is smaller by more than twice epsilon contains all points. -/
theorem C150_tight (r : Rounding 53) (hn : n ≤ 3) (fuel : Nat) (l : List (Pt n)) (b : Ball n) (h : Fl.boundingSphere r true fuel l = some b) (ρ : ℝ)
    (hρ : ∀ p ∈ l, eucl p.elem b.center.elem ≤ ρ) : (1 - epsilon) * b.radius ≤ ρ := by
  obtain ⟨p, hp, h1⟩ := C150_touches r hn fuel l b h
  exact h1.trans (hρ p hp)

/-! ### Special lists -/

/-- The excess of a point over a point is the rounded square of their distance. -/
theorem Fl.Miniball.excessOf_zero (r : Rounding 53) (c p : Fin n → ℝ) :
    Fl.Miniball.excessOf r c 0 p = Fl.sum r (fun k => r (r (p k - c k) * r (p k - c k))) := by
  unfold Fl.Miniball.excessOf Fl.sum
  rw [neg_zero]

theorem Fl.Miniball.excessOf_close (r : Rounding 53) (c p : Fin n → ℝ) : Close 53 (3 + n) (Fl.Miniball.excessOf r c 0 p) (Miniball.dsq p c) := by
  rw [Fl.Miniball.excessOf_zero]
  have := Fl.sum_close r (f := fun k => r (r (p k - c k) * r (p k - c k))) (g := fun k => (p k - c k) * (p k - c k)) (k := 3)
    (fun i => ((Close.round_self Fl.pos53 r _).mul Fl.pos53 (Close.round_self Fl.pos53 r _)).round Fl.pos53 r) (fun i => mul_self_nonneg _)
  have e : Miniball.dsq p c = ∑ k, (p k - c k) * (p k - c k) := by
    unfold Miniball.dsq
    simp [sq]
  rw [e]
  exact this

/-- C150 fails when all points are equal, and for a single point: with the assertions compiled in nothing is returned; without them the ball is the point. -/
theorem C150_equal (r : Rounding 53) (fuel : Nat) (l : List (Pt n)) (p : Pt n) (hl : l ≠ []) (h : ∀ q ∈ l, q.elem = p.elem) :
    Fl.boundingSphere r true fuel l = none ∧ Fl.boundingSphere r false (fuel + 1) l = some ⟨⟨p.elem, l.all Pt.valid⟩, 0⟩ := by
  match l, hl, h with
  | q :: ps, _, h =>
    have hb : ∀ k, Fl.Miniball.build r (k + 1) ((q :: ps).map Pt.elem) = some ⟨⟨p.elem, [], 1, p.elem, 0⟩, [p.elem], ps.map Pt.elem, 1⟩ := fun k => by
      show Fl.Miniball.pivotLoop r (k + 1) ⟨(Fl.Miniball.mtf r (n + 1) Miniball.Basis.reset [q.elem]).1, (Fl.Miniball.mtf r (n + 1) Miniball.Basis.reset [q.elem]).2.1, ps.map Pt.elem,
        (Fl.Miniball.mtf r (n + 1) Miniball.Basis.reset [q.elem]).2.2⟩ = _
      rw [Fl.Miniball.mtf_first, h q (by simp)]
      unfold Fl.Miniball.pivotLoop
      match hm : (Fl.Miniball.maxExcess r (⟨p.elem, [], 1, p.elem, 0⟩ : Miniball.Basis n) (ps.map Pt.elem)).2 with
      | none => simp only
      | some (x, i) =>
        exfalso
        obtain ⟨h1, h2⟩ := Fl.Miniball.maxExcess_some r hm
        obtain ⟨q', hq', rfl⟩ := List.mem_map.1 (List.mem_iff_getElem?.2 ⟨i, h2⟩)
        rw [h q' (by simp [hq'])] at h1
        have h3 : Fl.Miniball.excess r (⟨p.elem, [], 1, p.elem, 0⟩ : Miniball.Basis n) p.elem = 0 := by
          have := Fl.Miniball.excessOf_close r p.elem p.elem
          rw [Miniball.dsq_self] at this
          exact (this.eq_zero Fl.pos53).2 rfl
        exact absurd h1 (by rw [h3]; exact lt_irrefl _)
    constructor
    · unfold Fl.boundingSphere
      match fuel with
      | 0 => rfl
      | k + 1 => rw [hb]; simp
    · unfold Fl.boundingSphere
      rw [hb]
      simp [Ball.mk', r.zero]

/-- The state at the end for two points. -/
theorem Fl.Miniball.build_pair (r : Rounding 53) (hn : 1 ≤ n) (k : Nat) {p q : Fin n → ℝ} (hpq : p ≠ q) (st : Miniball.State n)
    (hst : st = ⟨⟨q, [], 2, fun i => r (q i + r (p i - q i) / 2), Fl.Miniball.excessOf r q 0 p / 4⟩, [q, p], [], 2⟩) :
    Fl.Miniball.build r (k + 2) [p, q] = some st ∧ Fl.Miniball.build r 1 [p, q] = none := by
  have hd : 0 < Miniball.dsq p q := lt_of_le_of_ne (Miniball.dsq_nonneg _ _) fun h => hpq (Miniball.dsq_eq_zero h.symm)
  have hd' : 0 < Miniball.dsq q p := lt_of_le_of_ne (Miniball.dsq_nonneg _ _) fun h => hpq (Miniball.dsq_eq_zero h.symm).symm
  have he := (Fl.Miniball.excessOf_close r q p).pos Fl.pos53 hd
  have he' := (Fl.Miniball.excessOf_close r p q).pos Fl.pos53 hd'
  have hfl : IsFl 53 (Fl.Miniball.excessOf r q 0 p) := by rw [Fl.Miniball.excessOf_zero]; exact Fl.isFl_sum r _
  obtain ⟨m, rfl⟩ : ∃ m, n = m + 1 := ⟨n - 1, by omega⟩
  have hpush : Fl.Miniball.push r (⟨q, [⟨0, 0, q, 0⟩], 1, q, 0⟩ : Miniball.Basis (m + 1)) p =
      some ⟨q, [⟨fun i => r (p i - q i), 2 * Fl.Miniball.excessOf r q 0 p, fun i => r (q i + r (p i - q i) / 2), Fl.Miniball.excessOf r q 0 p / 4⟩, ⟨0, 0, q, 0⟩], 2,
        fun i => r (q i + r (p i - q i) / 2), Fl.Miniball.excessOf r q 0 p / 4⟩ := by
    unfold Fl.Miniball.push
    have hres : Fl.Miniball.residue r q [⟨0, 0, q, 0⟩] p = fun i => r (p i - q i) := rfl
    simp only [hres, mul_zero, r.zero, ← Fl.Miniball.excessOf_zero]
    generalize Fl.Miniball.excessOf r q 0 p = e at *
    have e1 : r (e * 2) = 2 * e := by
      have := r.of_fl (hfl.mul_zpow 1)
      rw [zpow_one] at this
      rw [this]; ring
    have e2 : ∀ x, IsFl 53 x → IsFl 53 (x / 2) := fun x hx => by
      have := hx.mul_zpow (-1)
      rwa [zpow_neg_one, ← div_eq_mul_inv] at this
    have e3 : r (e / (2 * e)) = 1 / 2 := by
      rw [show e / (2 * e) = 1 / 2 by field_simp]
      exact r.of_fl (e2 _ (IsFl.one Fl.pos53))
    have e4 : ∀ i, r (1 / 2 * r (p i - q i)) = r (p i - q i) / 2 := fun i => by
      rw [show 1 / 2 * r (p i - q i) = r (p i - q i) / 2 by ring]
      exact r.of_fl (e2 _ (r.isFl _))
    have e5 : r (0 + r (r (e * (1 / 2)) / 2)) = e / 4 := by
      rw [show e * (1 / 2) = e / 2 by ring, r.of_fl (e2 _ hfl), r.of_fl (e2 _ (e2 _ hfl)), zero_add, r.of_fl (e2 _ (e2 _ hfl))]
      ring
    rw [e1, if_neg (by push Not; linarith), e3]
    simp only [e4, e5]
    rfl
  have hmtf : Fl.Miniball.mtf r (m + 1) (⟨q, [⟨0, 0, q, 0⟩], 1, q, 0⟩ : Miniball.Basis (m + 1)) [p] =
      (⟨q, [⟨0, 0, q, 0⟩], 2, fun i => r (q i + r (p i - q i) / 2), Fl.Miniball.excessOf r q 0 p / 4⟩, [p], 1) := by
    unfold Fl.Miniball.mtf
    rw [List.foldl_cons, List.foldl_nil, if_pos (show Fl.Miniball.excess r (⟨q, [⟨0, 0, q, 0⟩], 1, q, 0⟩ : Miniball.Basis (m + 1)) p > 0 from he)]
    simp only [hpush, Fl.Miniball.mtf_nil]
    rfl
  have hmax : (Fl.Miniball.maxExcess r (⟨p, [], 1, p, 0⟩ : Miniball.Basis (m + 1)) [q]).2 = some (q, 0) := by
    show (if Fl.Miniball.excessOf r p 0 q > 0 then (Fl.Miniball.excessOf r p 0 q, some (q, 0)) else ((0 : ℝ), none)).2 = _
    rw [if_pos he']
  have hstep : Fl.Miniball.pivotStep r (⟨⟨p, [], 1, p, 0⟩, [p], [q], 1⟩ : Miniball.State (m + 1)) q 0 =
      ⟨⟨q, [], 2, fun i => r (q i + r (p i - q i) / 2), Fl.Miniball.excessOf r q 0 p / 4⟩, [q, p], [], 2⟩ := by
    have h1 : (Fl.Miniball.push r (⟨p, [], 1, p, 0⟩ : Miniball.Basis (m + 1)) q).getD ⟨p, [], 1, p, 0⟩ = ⟨q, [⟨0, 0, q, 0⟩], 1, q, 0⟩ := rfl
    unfold Fl.Miniball.pivotStep
    simp only [h1]
    rw [show m + 1 + 1 - [(⟨0, 0, q, 0⟩ : Miniball.Frame (m + 1))].length = m + 1 by simp, show [p].take 1 = [p] from rfl, hmtf]
    rfl
  have hb : ∀ k, Fl.Miniball.build r (k + 1) [p, q] =
      Fl.Miniball.pivotLoop r k ⟨⟨q, [], 2, fun i => r (q i + r (p i - q i) / 2), Fl.Miniball.excessOf r q 0 p / 4⟩, [q, p], [], 2⟩ := fun k => by
    show Fl.Miniball.pivotLoop r (k + 1) ⟨(Fl.Miniball.mtf r (m + 1 + 1) Miniball.Basis.reset [p]).1, (Fl.Miniball.mtf r (m + 1 + 1) Miniball.Basis.reset [p]).2.1, [q],
      (Fl.Miniball.mtf r (m + 1 + 1) Miniball.Basis.reset [p]).2.2⟩ = _
    rw [Fl.Miniball.mtf_first]
    conv_lhs => unfold Fl.Miniball.pivotLoop
    simp only [hmax, hstep]
    rw [if_pos (by show (0 : ℝ) < _ / 4; linarith)]
  refine ⟨?_, hb 0⟩
  rw [hb (k + 1), hst]
  rfl

/-- C150, two different points, assertions left out: the radius is half the distance up to a relative error of epsilon, and each coordinate of the center is that of the midpoint up to
rounding of the coordinates. -/
theorem C150_pair (r : Rounding 53) (hn1 : 1 ≤ n) (hn : n ≤ 3) (k : Nat) (p q : Pt n) (hpq : p.elem ≠ q.elem) :
    ∃ b, Fl.boundingSphere r false (k + 2) [p, q] = some b ∧ b.center.valid = (p.valid && q.valid) ∧
      |b.radius - eucl p.elem q.elem / 2| ≤ epsilon * (eucl p.elem q.elem / 2) ∧
      ∀ i, |b.center.elem i - (p.elem i + q.elem i) / 2| ≤ 2 ^ (-52 : ℤ) * (|p.elem i| + |q.elem i|) := by
  have hb := (Fl.Miniball.build_pair r hn1 k hpq _ rfl).1
  unfold Fl.boundingSphere
  rw [show [p, q].map Pt.elem = [p.elem, q.elem] from rfl, hb]
  refine ⟨_, rfl, ?_, ?_, fun i => ?_⟩
  · unfold Ball.mk'
    rw [if_neg (not_lt.2 (Fl.Miniball.round_nonneg r (Real.sqrt_nonneg _)))]
    simp
  · show |r (Real.sqrt (Fl.Miniball.excessOf r q.elem 0 p.elem / 4)) - eucl p.elem q.elem / 2| ≤ _
    have h1 := (((Fl.Miniball.excessOf_close r q.elem p.elem).div Fl.pos53 (Close.refl Fl.pos53 0 4)).sqrt Fl.pos53).round Fl.pos53 r
    rw [dsq_eucl, show eucl p.elem q.elem ^ 2 / 4 = (eucl p.elem q.elem / 2) ^ 2 by ring] at h1
    have hec : 0 ≤ eucl p.elem q.elem / 2 := by rw [eucl_eq_len]; have := len_nonneg (p.elem - q.elem); linarith
    rw [Real.sqrt_sq hec] at h1
    have h2 := h1.mono Fl.pos53 (show 3 + n + 0 + 1 ≤ 7 by omega)
    have := h2.err Fl.pos53 (by rw [Fl.u53]; norm_num)
    rw [abs_of_nonneg hec] at this
    refine this.trans (mul_le_mul_of_nonneg_right ?_ hec)
    rw [Fl.u53]; unfold epsilon; norm_num
  · have hc : ∀ (V : Fin n → ℝ) (b : Bool) (ρ : ℝ), (Ball.mk' ⟨V, b⟩ ρ).center.elem = V := fun V b ρ => by
      unfold Ball.mk'; split_ifs <;> rfl
    rw [hc]
    simp only
    have h1 := r.err Fl.pos53 (p.elem i - q.elem i)
    have h2 := r.err Fl.pos53 (q.elem i + r (p.elem i - q.elem i) / 2)
    have hu0 : 0 < u 53 := u_pos
    have hu : u 53 ≤ 1 / 1000000 := by rw [Fl.u53]; norm_num
    rw [show (2 : ℝ) ^ (-52 : ℤ) = 2 * u 53 by rw [Fl.u53]; norm_num]
    generalize r (q.elem i + r (p.elem i - q.elem i) / 2) = C at *
    generalize r (p.elem i - q.elem i) = v at *
    generalize p.elem i = a at *
    generalize q.elem i = b at *
    have a0 : |a - b| ≤ |a| + |b| := abs_sub a b
    have a1 : |v - (a - b)| ≤ u 53 * (|a| + |b|) := h1.trans (mul_le_mul_of_nonneg_left a0 hu0.le)
    have hW : 0 ≤ |a| + |b| := by positivity
    have a2 : |b + v / 2| ≤ 11 / 20 * (|a| + |b|) := by
      have e : b + v / 2 = (a + b) / 2 + (v - (a - b)) / 2 := by ring
      rw [e]
      refine (abs_add_le _ _).trans ?_
      rw [abs_div, abs_div, abs_two]
      have := abs_add_le a b
      have : u 53 * (|a| + |b|) ≤ 1 / 1000000 * (|a| + |b|) := mul_le_mul_of_nonneg_right hu hW
      linarith
    have a3 := mul_le_mul_of_nonneg_left a2 hu0.le
    have e : C - (a + b) / 2 = (C - (b + v / 2)) + (v - (a - b)) / 2 := by ring
    rw [e]
    refine (abs_add_le _ _).trans ?_
    rw [abs_div, abs_two]
    have a5 := mul_nonneg hu0.le hW
    linarith

/-- C150: the assertions only check: a ball that is returned with them is returned without them. -/
theorem C150_checked (r : Rounding 53) (fuel : Nat) (l : List (Pt n)) (b : Ball n) (h : Fl.boundingSphere r true fuel l = some b) : Fl.boundingSphere r false fuel l = some b := by
  unfold Fl.boundingSphere at h ⊢
  match hb : Fl.Miniball.build r fuel (l.map Pt.elem) with
  | none => rw [hb] at h; simp at h
  | some st =>
    rw [hb] at h
    simp only at h
    split_ifs at h
    exact h

/-- The excess of either point for two points that are not too close together for their distance from the origin. -/
theorem Fl.Miniball.pair_excess (r : Rounding 53) (hn : n ≤ 3) {p q : Fin n → ℝ} (hp : len p ≤ 4 * eucl p q) (hq : len q ≤ 4 * eucl p q) (x : Fin n → ℝ) (hx : x = p ∨ x = q) :
    |Fl.Miniball.excessOf r (fun i => r (q i + r (p i - q i) / 2)) (Fl.Miniball.excessOf r q 0 p / 4) x| ≤ 58 * u 53 * (Fl.Miniball.excessOf r q 0 p / 4) := by
  have hu0 : 0 < u 53 := u_pos
  have hu : u 53 ≤ 1 / 1000000 := by rw [Fl.u53]; norm_num
  have he := Fl.Miniball.Close_sharp ((Fl.Miniball.excessOf_close r q p).mono Fl.pos53 (show 3 + n ≤ 6 by omega)) (by norm_num)
  have hD := dsq_eucl p q
  have hec : 0 ≤ eucl p q := by rw [eucl_eq_len]; exact len_nonneg _
  rw [abs_of_nonneg (Miniball.dsq_nonneg p q), hD, _root_.abs_le] at he
  push_cast at he
  have r1 := len_round r (p - q)
  have r2 := len_round r (q + (1 / 2 : ℝ) • fun i => r (p i - q i))
  have e1 : (fun i => r ((p - q) i)) = fun i => r (p i - q i) := rfl
  have e2 : (fun i => r ((q + (1 / 2 : ℝ) • fun i => r (p i - q i)) i)) = fun i => r (q i + r (p i - q i) / 2) := by
    funext i
    show r (q i + 1 / 2 * r (p i - q i)) = _
    congr 2
    ring
  rw [e1, ← Fl.u53] at r1
  rw [e2, ← Fl.u53] at r2
  have hE := Fl.Miniball.excessOf_err r hn (fun i => r (q i + r (p i - q i) / 2)) (Fl.Miniball.excessOf r q 0 p / 4) x
  rw [dsq_eucl] at hE
  rw [← eucl_eq_len p q] at r1
  generalize (fun i => r (q i + r (p i - q i) / 2)) = c at *
  generalize hv : (fun i => r (p i - q i)) = v at *
  generalize Fl.Miniball.excessOf r q 0 p = e at *
  -- the distance of the center from either point
  have hm : len (q + (1 / 2 : ℝ) • v) ≤ 41 / 10 * eucl p q := by
    have k : q + (1 / 2 : ℝ) • v = (1 / 2 : ℝ) • p + (1 / 2 : ℝ) • q + (1 / 2 : ℝ) • (v - (p - q)) := by module
    rw [k]
    refine (len_add_le _ _).trans ((add_le_add (len_add_le _ _) le_rfl).trans ?_)
    rw [len_smul, len_smul, len_smul, abs_of_pos (by norm_num : (0 : ℝ) < 1 / 2)]
    have := mul_le_mul_of_nonneg_right hu hec
    linarith
  have hdist : |eucl x c - eucl p q / 2| ≤ 47 / 10 * u 53 * eucl p q := by
    have hh : eucl p q / 2 = len ((1 / 2 : ℝ) • (p - q)) := by
      rw [len_smul, abs_of_pos (by norm_num : (0 : ℝ) < 1 / 2), eucl_eq_len]; ring
    have g1 : len (c - (1 / 2 : ℝ) • (p + q)) ≤ 47 / 10 * u 53 * eucl p q := by
      have k : c - (1 / 2 : ℝ) • (p + q) = (c - (q + (1 / 2 : ℝ) • v)) + (1 / 2 : ℝ) • (v - (p - q)) := by module
      rw [k]
      refine (len_add_le _ _).trans ?_
      rw [len_smul, abs_of_pos (by norm_num : (0 : ℝ) < 1 / 2)]
      have h1 := mul_le_mul_of_nonneg_left hm hu0.le
      have h2 := mul_nonneg hu0.le hec
      linarith
    have tri : ∀ a b : Fin n → ℝ, |len a - len b| ≤ len (a - b) := fun a b => by
      rw [abs_sub_le_iff]
      constructor
      · have := len_add_le (a - b) b
        rw [sub_add_cancel] at this
        linarith
      · have := len_add_le (b - a) a
        rw [sub_add_cancel, ← neg_sub, len_neg] at this
        linarith
    rcases hx with rfl | rfl
    · rw [eucl_eq_len x c, hh]
      refine (tri _ _).trans ?_
      have k : x - c - (1 / 2 : ℝ) • (x - q) = -(c - (1 / 2 : ℝ) • (x + q)) := by module
      rw [k, len_neg]
      exact g1
    · have hh' : len ((1 / 2 : ℝ) • (p - x)) = len ((1 / 2 : ℝ) • (x - p)) := by
        rw [← len_neg]; congr 1; module
      rw [eucl_eq_len x c, hh, hh']
      refine (tri _ _).trans ?_
      have k : x - c - (1 / 2 : ℝ) • (x - p) = -(c - (1 / 2 : ℝ) • (p + x)) := by module
      rw [k, len_neg]
      exact g1
  have hxc : 0 ≤ eucl x c := by rw [eucl_eq_len]; exact len_nonneg _
  have hx2 : |eucl x c ^ 2 - eucl p q ^ 2 / 4| ≤ 19 / 4 * u 53 * eucl p q ^ 2 := by
    have k : eucl x c ^ 2 - eucl p q ^ 2 / 4 = (eucl x c - eucl p q / 2) * (eucl x c + eucl p q / 2) := by ring
    rw [k, abs_mul]
    have h1 := (_root_.abs_le.1 hdist).2
    have h2 : |eucl x c + eucl p q / 2| ≤ (1 + 47 / 10 * u 53) * eucl p q := by
      rw [abs_of_nonneg (by linarith)]; linarith
    refine (mul_le_mul hdist h2 (abs_nonneg _) (by positivity)).trans ?_
    have h3 : 47 / 10 * u 53 * (1 + 47 / 10 * u 53) ≤ 19 / 4 * u 53 := by nlinarith
    have := mul_le_mul_of_nonneg_right h3 (sq_nonneg (eucl p q))
    linarith
  rw [_root_.abs_le] at hx2
  generalize eucl x c ^ 2 = X at *
  have hS0 := sq_nonneg (eucl p q)
  generalize eucl p q ^ 2 = S at *
  have uS := mul_nonneg hu0.le hS0
  have uS' := mul_le_mul_of_nonneg_right hu hS0
  have he0 : 0 ≤ e / 4 := by linarith
  rw [abs_of_nonneg he0, _root_.abs_le] at hE
  have ue : u 53 * e ≤ u 53 * (101 / 100 * S) := mul_le_mul_of_nonneg_left (by linarith) hu0.le
  have ue' : u 53 * (99 / 100 * S) ≤ u 53 * e := mul_le_mul_of_nonneg_left (by linarith) hu0.le
  have uX : u 53 * X ≤ u 53 * (26 / 100 * S) := mul_le_mul_of_nonneg_left (by linarith) hu0.le
  rw [_root_.abs_le]
  constructor <;> linarith

/-- C150, two points whose distance is at least a quarter of their distances from the origin: the assertions hold, so that a ball is returned also with them. -/
theorem C150_pair_returns (r : Rounding 53) (hn1 : 1 ≤ n) (hn : n ≤ 3) (k : Nat) (p q : Pt n) (hpq : p.elem ≠ q.elem) (hp : len p.elem ≤ 4 * eucl p.elem q.elem)
    (hq : len q.elem ≤ 4 * eucl p.elem q.elem) : ∃ b, Fl.boundingSphere r true (k + 2) [p, q] = some b := by
  have hb := (Fl.Miniball.build_pair r hn1 k hpq _ rfl).1
  have hd : 0 < Miniball.dsq p.elem q.elem := lt_of_le_of_ne (Miniball.dsq_nonneg _ _) fun h => hpq (Miniball.dsq_eq_zero h.symm)
  have he := (Fl.Miniball.excessOf_close r q.elem p.elem).pos Fl.pos53 hd
  have hR : 0 < Fl.Miniball.excessOf r q.elem 0 p.elem / 4 := by linarith
  have x1 := Fl.Miniball.pair_excess r hn hp hq q.elem (Or.inr rfl)
  have x2 := Fl.Miniball.pair_excess r hn hp hq p.elem (Or.inl rfl)
  unfold Fl.boundingSphere
  rw [show [p, q].map Pt.elem = [p.elem, q.elem] from rfl, hb]
  simp only
  have hm : Fl.Miniball.maxError r (⟨⟨q.elem, [], 2, fun i => r (q.elem i + r (p.elem i - q.elem i) / 2), Fl.Miniball.excessOf r q.elem 0 p.elem / 4⟩, [q.elem, p.elem], [], 2⟩ : Miniball.State n)
      ≤ 58 * u 53 * (Fl.Miniball.excessOf r q.elem 0 p.elem / 4) := by
    unfold Fl.Miniball.maxError Fl.Miniball.excess
    simp only [List.append_nil, List.take_succ_cons, List.take_zero, List.drop_succ_cons, List.drop_zero, List.foldl_cons, List.foldl_nil]
    have h0 : 0 ≤ 58 * u 53 * (Fl.Miniball.excessOf r q.elem 0 p.elem / 4) := mul_nonneg (mul_nonneg (by norm_num) u_pos.le) hR.le
    split_ifs <;> assumption
  rw [if_neg]
  · exact ⟨_, rfl⟩
  · have h1 := (div_le_iff₀ hR).2 hm
    have h2 := r.mono h1
    have h3 : r (58 * u 53) = 58 * u 53 := by
      rw [Fl.u53]
      exact r.of_fl (by have := IsFl.int_zpow (p := 53) Fl.pos53 (k := 58) (by norm_num) (-53); exact_mod_cast this)
    have h4 : 58 * u 53 < epsilon := by rw [Fl.u53]; unfold epsilon; norm_num
    rw [h3] at h2
    have h5 := lt_of_le_of_lt h2 h4
    simp only [Bool.true_and, Bool.not_eq_true', Bool.not_eq_false, Bool.and_eq_true, beq_iff_eq, decide_eq_true_eq]
    exact ⟨trivial, hR.ne', h5⟩

/-- C150 fails for points that are different but close together: for `(1, 0)` and `(1 + 2^-52, 0)` no double lies near the midpoint, and the assertion at the end fails. -/
theorem C150_false (r : Rounding 53) (fuel : Nat) : Fl.boundingSphere r true fuel [(⟨![1, 0], true⟩ : Pt 2), ⟨![1 + 2 ^ (-52 : ℤ), 0], true⟩] = none := by
  match hb : Fl.boundingSphere r true fuel [(⟨![1, 0], true⟩ : Pt 2), ⟨![1 + 2 ^ (-52 : ℤ), 0], true⟩] with
  | none => rfl
  | some b =>
    exfalso
    have hne : (![1, 0] : Fin 2 → ℝ) ≠ ![1 + 2 ^ (-52 : ℤ), 0] := fun h => by
      have := congrFun h 0
      simp at this
    obtain ⟨st, h1, h2, -, h3⟩ := Fl.sphere_state hb
    have h1' : Fl.Miniball.build r fuel [![1, 0], ![1 + 2 ^ (-52 : ℤ), 0]] = some st := h1
    have hfuel : ∃ k, fuel = k + 2 := by
      match fuel with
      | 0 => simp [Fl.Miniball.build, Fl.Miniball.pivotLoop] at h1'
      | 1 => rw [(Fl.Miniball.build_pair r (by norm_num) 0 hne _ rfl).2] at h1'; simp at h1'
      | k + 2 => exact ⟨k, rfl⟩
    obtain ⟨k, rfl⟩ := hfuel
    rw [(Fl.Miniball.build_pair r (by norm_num) k hne _ rfl).1, Option.some.injEq] at h1'
    obtain ⟨b', hb', -, hr, -⟩ := C150_pair r (by norm_num) (by norm_num) k (⟨![1, 0], true⟩ : Pt 2) ⟨![1 + 2 ^ (-52 : ℤ), 0], true⟩ hne
    rw [C150_checked r _ _ b hb, Option.some.injEq] at hb'
    subst hb'
    have hfl : IsFl 53 (b.center.elem 0) := by
      rw [h3, ← h1']
      exact r.isFl _
    have e1 := (C150_encloses r (by norm_num) _ _ b hb ⟨![1, 0], true⟩ (by simp)).1
    have e2 := (C150_encloses r (by norm_num) _ _ b hb ⟨![1 + 2 ^ (-52 : ℤ), 0], true⟩ (by simp)).1
    have hd : eucl (![1, 0] : Fin 2 → ℝ) ![1 + 2 ^ (-52 : ℤ), 0] = 2 ^ (-52 : ℤ) := by
      rw [← abs_of_nonneg (show (0 : ℝ) ≤ 2 ^ (-52 : ℤ) by positivity), ← Real.sqrt_sq_eq_abs]
      unfold eucl
      congr 1
      rw [Fin.sum_univ_two]
      simp
    rw [hd] at hr
    have coord : ∀ x c : Fin 2 → ℝ, |x 0 - c 0| ≤ eucl x c := fun x c => by
      refine abs_le_of_sq_le_sq ?_ (by rw [eucl_eq_len]; exact len_nonneg _)
      rw [eucl_sq, Fin.sum_univ_two]
      have := sq_nonneg (x 1 - c 1)
      linarith
    have c1 := (coord _ _).trans e1
    have c2 := (coord _ _).trans e2
    simp only [Matrix.cons_val_zero] at c1 c2
    generalize b.center.elem 0 = c at *
    generalize b.radius = R at *
    rw [_root_.abs_le] at hr c1 c2
    have hR : R ≤ (1 + epsilon) * (2 ^ (-52 : ℤ) / 2) := by linarith [hr.2]
    have hR2 : (1 + epsilon) * R ≤ 3 / 4 * 2 ^ (-52 : ℤ) := by
      refine (mul_le_mul_of_nonneg_left hR (by have := epsilon_pos; linarith)).trans ?_
      unfold epsilon
      norm_num
    have aux : ∀ t X : ℝ, 0 < t → X ≤ 3 / 4 * t → -X ≤ 1 - c → 1 + t - c ≤ X → 1 < c ∧ c < 1 + t := fun t X a b d e => ⟨by linarith, by linarith⟩
    obtain ⟨l1, l2⟩ := aux _ _ (by positivity) hR2 c1.1 c2.2
    obtain ⟨j, hj⟩ := hfl.grid (e := 0) (by rw [zpow_zero, abs_of_pos (by linarith)]; exact l1.le)
    norm_num at hj l2
    rw [hj] at l1 l2
    have m1 : (4503599627370496 : ℝ) < j := by linarith
    have m2 : (j : ℝ) < 4503599627370497 := by linarith
    have m1' : (4503599627370496 : ℤ) < j := by exact_mod_cast m1
    have m2' : j < (4503599627370497 : ℤ) := by exact_mod_cast m2
    omega

end WFMath
