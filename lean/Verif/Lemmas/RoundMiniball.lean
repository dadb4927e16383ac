/- The smallest enclosing ball with rounding: what holds of the final state. -/
import Verif.Model.RoundedMiniball
import Verif.Lemmas.Miniball
import Verif.Lemmas.Rounded

namespace WFMath.Fl.Miniball
open Spec Matrix Rounding WFMath.Miniball
variable {n : Nat}

theorem round_nonneg (r : Rounding 53) {x : ℝ} (h : 0 ≤ x) : 0 ≤ r x := by
  have := r.mono h
  rwa [r.zero] at this

theorem sum_nonneg (r : Rounding 53) {f : Fin n → ℝ} (h : ∀ i, 0 ≤ f i) : 0 ≤ sum r f := by
  unfold sum
  have : ∀ (l : List (Fin n)) (s : ℝ), 0 ≤ s → 0 ≤ l.foldl (fun s i => r (s + f i)) s := by
    intro l
    induction l with
    | nil => intro s hs; exact hs
    | cons i l ih => intro s hs; exact ih _ (round_nonneg r (add_nonneg hs (h i)))
  exact this _ _ le_rfl

/-- The error of a few roundings, with a sharp constant. -/
theorem Close_sharp {k : Nat} {x' x : ℝ} (h : Close 53 k x' x) (hk : k ≤ 100) : |x' - x| ≤ (k + 1 / 10) * u 53 * |x| := by
  obtain ⟨t, h1, h2, rfl⟩ := h
  have hu0 : 0 < u 53 := u_pos
  have hu : u 53 ≤ 1 / 1000000 := by rw [u53]; norm_num
  have hk' : (k : ℝ) ≤ 100 := by exact_mod_cast hk
  have hk0 : (0 : ℝ) ≤ k := k.cast_nonneg
  have hb : 1 - k * u 53 ≤ (1 - u 53) ^ k := by
    have := one_add_mul_le_pow (show (-2 : ℝ) ≤ -u 53 by linarith) k
    rw [← sub_eq_add_neg] at this
    linarith
  have hku : k * u 53 ≤ 100 * u 53 := mul_le_mul_of_nonneg_right hk' hu0.le
  have ht0 : 0 ≤ t := by
    have : 0 < (1 - u 53) ^ k := by linarith
    linarith
  have ht : t * (1 - k * u 53) ≤ 1 := (mul_le_mul_of_nonneg_left hb ht0).trans h2
  have hup : t ≤ 1 + (k + 1 / 10) * u 53 := by
    by_contra hc
    push Not at hc
    have h3 := mul_lt_mul_of_pos_right hc (show 0 < 1 - k * u 53 by linarith)
    have h4 : (k + 1 / 10) * u 53 * (k * u 53) ≤ 1 / 10 * u 53 := by
      have : (k + 1 / 10) * (k * u 53) ≤ 1 / 10 := by nlinarith
      nlinarith
    nlinarith
  have e : t * x - x = (t - 1) * x := by ring
  rw [e, abs_mul]
  refine mul_le_mul_of_nonneg_right ?_ (abs_nonneg x)
  rw [_root_.abs_le]
  constructor <;> linarith

/-- The error of the computed excess. -/
theorem excessOf_err (r : Rounding 53) (hn : n ≤ 3) (c : Fin n → ℝ) (q : ℝ) (p : Fin n → ℝ) :
    |excessOf r c q p - (dsq p c - q)| ≤ 63 / 5 * u 53 * (|q| + dsq p c) := by
  have hu0 : 0 < u 53 := u_pos
  have hu : u 53 ≤ 1 / 1000000 := by rw [u53]; norm_num
  have hd : dsq p c = ((List.finRange n).map fun k => (p k - c k) ^ 2).sum := by
    rw [← List.ofFn_eq_map, List.sum_ofFn]; rfl
  have key : ∀ (l : List (Fin n)) (k : Nat) (e S W : ℝ), |e - S| ≤ 21 / 5 * u 53 * k * W → |S| + (l.map fun k => (p k - c k) ^ 2).sum ≤ W → k + l.length ≤ 3 →
      |l.foldl (fun e k => r (e + r (r (p k - c k) * r (p k - c k)))) e - (S + (l.map fun k => (p k - c k) ^ 2).sum)| ≤ 21 / 5 * u 53 * (k + l.length) * W := by
    intro l
    induction l with
    | nil => intro k e S W h _ _; simpa using h
    | cons i l ih =>
      intro k e S W h hW hk
      rw [List.length_cons] at hk
      simp only [List.map_cons, List.sum_cons] at hW ⊢
      have hl0 : 0 ≤ (l.map fun k => (p k - c k) ^ 2).sum := List.sum_nonneg (by simp only [List.mem_map]; rintro x ⟨k, -, rfl⟩; positivity)
      have hs : |r (r (p i - c i) * r (p i - c i)) - (p i - c i) ^ 2| ≤ 31 / 10 * u 53 * (p i - c i) ^ 2 := by
        have hc : Close 53 3 (r (r (p i - c i) * r (p i - c i))) ((p i - c i) * (p i - c i)) :=
          (((Close.round_self pos53 r _).mul pos53 (Close.round_self pos53 r _)).round pos53 r)
        have := Close_sharp hc (by norm_num)
        rw [abs_of_nonneg (mul_self_nonneg (p i - c i)), ← sq (p i - c i)] at this
        push_cast at this
        have h2 := mul_nonneg hu0.le (sq_nonneg (p i - c i))
        linarith
      have hd0 : 0 ≤ (p i - c i) ^ 2 := sq_nonneg _
      have hW0 : 0 ≤ W := by have := abs_nonneg S; linarith
      have hr := r.abs_le pos53 (e + r (r (p i - c i) * r (p i - c i)))
      rw [List.foldl_cons, List.length_cons]
      generalize r (r (p i - c i) * r (p i - c i)) = s at *
      have hrel := r.err pos53 (e + s)
      have := ih (k + 1) (r (e + s)) (S + (p i - c i) ^ 2) W ?_ ?_ (by omega)
      · push_cast at this ⊢
        have e1 : S + (p i - c i) ^ 2 + (l.map fun k => (p k - c k) ^ 2).sum = S + ((p i - c i) ^ 2 + (l.map fun k => (p k - c k) ^ 2).sum) := by ring
        have e2 : 21 / 5 * u 53 * ((k : ℝ) + 1 + l.length) * W = 21 / 5 * u 53 * (k + (l.length + 1)) * W := by ring
        rw [e1, e2] at this
        exact this
      · have hk3 : (k : ℝ) ≤ 3 := by
          have : k ≤ 3 := by omega
          exact_mod_cast this
        have a1 : |e + s - (S + (p i - c i) ^ 2)| ≤ 21 / 5 * u 53 * k * W + 31 / 10 * u 53 * (p i - c i) ^ 2 := by
          have := abs_add_le (e - S) (s - (p i - c i) ^ 2)
          have e1 : e - S + (s - (p i - c i) ^ 2) = e + s - (S + (p i - c i) ^ 2) := by ring
          rw [e1] at this
          linarith
        have a2 : |S + (p i - c i) ^ 2| ≤ W := by
          have := abs_add_le S ((p i - c i) ^ 2)
          rw [abs_of_nonneg hd0] at this
          linarith
        have a3 : (p i - c i) ^ 2 ≤ W := by have := abs_nonneg S; linarith
        have a4 := mul_nonneg hu0.le hW0
        have a5 : 21 / 5 * u 53 * k * W ≤ 63 / 5 * (u 53 * W) := by nlinarith
        have a6 : 31 / 10 * u 53 * (p i - c i) ^ 2 ≤ 31 / 10 * (u 53 * W) := by nlinarith
        have a7 : u 53 * W ≤ 1 / 1000000 * W := mul_le_mul_of_nonneg_right hu hW0
        have a8 : |e + s| ≤ 101 / 100 * W := by
          have := abs_sub_abs_le_abs_sub (e + s) (S + (p i - c i) ^ 2)
          linarith
        have a9 := mul_le_mul_of_nonneg_left a8 hu0.le
        have a10 := abs_sub_le (r (e + s)) (e + s) (S + (p i - c i) ^ 2)
        push_cast
        linarith
      · have := abs_add_le S ((p i - c i) ^ 2)
        rw [abs_of_nonneg hd0] at this
        linarith
  have := key (List.finRange n) 0 (-q) (-q) (|q| + dsq p c) (by simp) (by rw [abs_neg, hd]) (by simpa using hn)
  rw [← hd] at this
  have e1 : -q + dsq p c = dsq p c - q := by ring
  rw [e1] at this
  refine this.trans ?_
  have hn' : (n : ℝ) ≤ 3 := by exact_mod_cast hn
  have hW : 0 ≤ |q| + dsq p c := add_nonneg (abs_nonneg q) (dsq_nonneg p c)
  rw [List.length_finRange]
  refine mul_le_mul_of_nonneg_right ?_ hW
  push_cast
  nlinarith

theorem push_nn (r : Rounding 53) {B B1 : Basis n} {p : Fin n → ℝ} (h : ∀ fr ∈ B.frames, 0 ≤ fr.sqrR) (hp : push r B p = some B1) :
    NN B1 ∧ B1.frames.tail = B.frames := by
  unfold push at hp
  match hf : B.frames with
  | [] =>
    rw [hf] at hp
    simp only [Option.some.injEq] at hp
    subst hp
    exact ⟨⟨by simp, le_rfl⟩, rfl⟩
  | top :: rest =>
    rw [hf] at hp h
    simp only at hp
    split_ifs at hp with hz
    simp only [Option.some.injEq] at hp
    subst hp
    have ht := h top (by simp)
    have hz0 : 0 ≤ r (sum r (fun j => r (residue r B.q0 (top :: rest) p j * residue r B.q0 (top :: rest) p j)) * 2) :=
      round_nonneg r (mul_nonneg (sum_nonneg r fun j => round_nonneg r (mul_self_nonneg _)) (by norm_num))
    have hr : ∀ z e, 0 ≤ z → 0 ≤ r (top.sqrR + r (r (e * r (e / z)) / 2)) := fun z e hz => by
      refine round_nonneg r (add_nonneg ht (round_nonneg r (div_nonneg (round_nonneg r ?_) (by norm_num))))
      rcases le_total 0 e with he | he
      · exact mul_nonneg he (round_nonneg r (div_nonneg he hz))
      · refine mul_nonneg_of_nonpos_of_nonpos he ?_
        have := r.mono (div_nonpos_of_nonpos_of_nonneg he hz)
        rwa [r.zero] at this
    refine ⟨⟨fun fr hfr => ?_, hr _ _ hz0⟩, rfl⟩
    rcases List.mem_cons.1 hfr with rfl | hfr
    · exact hr _ _ hz0
    · exact h fr hfr

theorem maxExcess_some (r : Rounding 53) {B : Basis n} {l : List (Fin n → ℝ)} {p : Fin n → ℝ} {i : Nat} (h : (maxExcess r B l).2 = some (p, i)) :
    0 < excess r B p ∧ l[i]? = some p := by
  have key : ∀ (l' : List ((Fin n → ℝ) × Nat)) (st : ℝ × Option ((Fin n → ℝ) × Nat)), 0 ≤ st.1 → (∀ k, st.2 = some k → 0 < excess r B k.1 ∧ k ∈ l.zipIdx) →
      (∀ k ∈ l', k ∈ l.zipIdx) → ∀ k, (l'.foldl (fun st k => if excess r B k.1 > st.1 then (excess r B k.1, some k) else st) st).2 = some k →
      0 < excess r B k.1 ∧ k ∈ l.zipIdx := by
    intro l'
    induction l' with
    | nil => intro st _ h2 _ k hk; exact h2 k hk
    | cons a l' ih =>
      intro st h1 h2 h3 k hk
      rw [List.foldl_cons] at hk
      refine ih _ ?_ ?_ (fun k hk => h3 k (by simp [hk])) k hk
      · split_ifs with h
        · exact h1.trans h.le
        · exact h1
      · split_ifs with h
        · rintro k' hk'
          simp only [Option.some.injEq] at hk'
          subst hk'
          exact ⟨h1.trans_lt h, h3 _ (by simp)⟩
        · exact h2
  have := key l.zipIdx (0, none) le_rfl (by simp) (fun _ h => h) (p, i) h
  exact ⟨this.1, List.mem_zipIdx_iff_getElem?.1 this.2⟩

theorem mtf_nil (r : Rounding 53) (k : Nat) (B : Basis n) : mtf r k B [] = (B, [], 0) := by
  cases k <;> rfl

theorem mtf_first (r : Rounding 53) (p : Fin n → ℝ) : mtf r (n + 1) Basis.reset [p] = (⟨p, [], 1, p, 0⟩, [p], 1) := by
  unfold mtf
  rw [List.foldl_cons, List.foldl_nil, if_pos]
  · show (Basis.pop (mtf r n ⟨p, [⟨0, 0, p, 0⟩], 1, p, 0⟩ []).1, p :: (mtf r n ⟨p, [⟨0, 0, p, 0⟩], 1, p, 0⟩ []).2.1,
      (mtf r n ⟨p, [⟨0, 0, p, 0⟩], 1, p, 0⟩ []).2.2 + 1) = _
    rw [mtf_nil]; rfl
  · have key : ∀ (l : List (Fin n)) (e : ℝ), 1 ≤ e → 1 ≤ l.foldl (fun e k => r (e + r (r (p k - (Basis.reset : Basis n).curC k) * r (p k - (Basis.reset : Basis n).curC k)))) e := by
      intro l
      induction l with
      | nil => intro e h; exact h
      | cons i l ih =>
        intro e h
        refine ih _ ?_
        have := r.mono (show (1 : ℝ) ≤ e + r (r (p i - (Basis.reset : Basis n).curC i) * r (p i - (Basis.reset : Basis n).curC i)) by
          have := round_nonneg r (mul_self_nonneg (r (p i - (Basis.reset : Basis n).curC i)))
          linarith)
        rwa [r.of_fl (IsFl.one pos53)] at this
    have := key (List.finRange n) 1 le_rfl
    have e : excess r (Basis.reset : Basis n) p = (List.finRange n).foldl (fun e k => r (e + r (r (p k - (Basis.reset : Basis n).curC k) * r (p k - (Basis.reset : Basis n).curC k)))) 1 := by
      unfold excess excessOf
      rw [show -(Basis.reset : Basis n).curR = 1 by unfold Basis.reset; norm_num]
    rw [gt_iff_lt, e]
    linarith

theorem mtf_any (r : Rounding 53) : ∀ (k : Nat) (B : Basis n) (l : List (Fin n → ℝ)), NN B →
    NN (mtf r k B l).1 ∧ (mtf r k B l).1.frames = B.frames ∧ (mtf r k B l).2.1.Perm l
  | 0, B, l, h => ⟨h, rfl, List.Perm.refl _⟩
  | k + 1, B, l, h => by
    unfold mtf
    have loop : ∀ (rest pre : List (Fin n → ℝ)) (st : Basis n × List (Fin n → ℝ) × Nat),
        NN st.1 ∧ st.1.frames = B.frames ∧ st.2.1.Perm pre → NN (rest.foldl (fun st j =>
      if excess r st.1 j > 0 then
        match push r st.1 j with
        | some B1 => ((mtf r k B1 st.2.1).1.pop, j :: (mtf r k B1 st.2.1).2.1, (mtf r k B1 st.2.1).2.2 + 1)
        | none => (st.1, st.2.1 ++ [j], st.2.2)
      else (st.1, st.2.1 ++ [j], st.2.2)) st).1 ∧ (rest.foldl (fun st j =>
      if excess r st.1 j > 0 then
        match push r st.1 j with
        | some B1 => ((mtf r k B1 st.2.1).1.pop, j :: (mtf r k B1 st.2.1).2.1, (mtf r k B1 st.2.1).2.2 + 1)
        | none => (st.1, st.2.1 ++ [j], st.2.2)
      else (st.1, st.2.1 ++ [j], st.2.2)) st).1.frames = B.frames ∧ (rest.foldl (fun st j =>
      if excess r st.1 j > 0 then
        match push r st.1 j with
        | some B1 => ((mtf r k B1 st.2.1).1.pop, j :: (mtf r k B1 st.2.1).2.1, (mtf r k B1 st.2.1).2.2 + 1)
        | none => (st.1, st.2.1 ++ [j], st.2.2)
      else (st.1, st.2.1 ++ [j], st.2.2)) st).2.1.Perm (pre ++ rest) := by
      intro rest
      induction rest with
      | nil => intro pre st h; simpa using h
      | cons j rest ih =>
        intro pre st hst
        rw [List.foldl_cons, show pre ++ j :: rest = (pre ++ [j]) ++ rest by simp]
        refine ih (pre ++ [j]) _ ?_
        split_ifs with hex
        · match hp : push r st.1 j with
          | none => exact ⟨hst.1, hst.2.1, hst.2.2.append_right [j]⟩
          | some B1 =>
            obtain ⟨n1, n2⟩ := push_nn r hst.1.1 hp
            obtain ⟨m1, m2, m3⟩ := mtf_any r k B1 st.2.1 n1
            refine ⟨⟨fun fr hfr => ?_, m1.2⟩, ?_, ?_⟩
            · exact m1.1 fr (List.mem_of_mem_tail hfr)
            · show (mtf r k B1 st.2.1).1.frames.tail = _
              rw [m2, n2, hst.2.1]
            · show (j :: (mtf r k B1 st.2.1).2.1).Perm (pre ++ [j])
              exact ((m3.trans hst.2.2).cons j).trans (List.perm_append_singleton j pre).symm
        · exact ⟨hst.1, hst.2.1, hst.2.2.append_right [j]⟩
    have := loop l [] (B, [], 0) ⟨h, rfl, List.Perm.refl _⟩
    rw [List.nil_append] at this
    exact this

/-- Whatever the points are, the loop only reorders them and ends with a radius. -/
theorem pivotLoop_any (r : Rounding 53) {l : List (Fin n → ℝ)} : ∀ (fuel : Nat) (st st' : State n), st.B.frames = [] → 0 ≤ st.B.curR → (st.front ++ st.back).Perm l →
    1 ≤ st.s → st.front ≠ [] → pivotLoop r fuel st = some st' → 0 ≤ st'.B.curR ∧ (st'.front ++ st'.back).Perm l ∧ 1 ≤ st'.s ∧ st'.front ≠ []
  | 0, _, _, _, _, _, _, _, h => by simp [pivotLoop] at h
  | fuel + 1, st, st', hf, hn, hp, hs1, hs2, h => by
    unfold pivotLoop at h
    match hm : (maxExcess r st.B st.back).2 with
    | none =>
      rw [hm] at h
      simp only [Option.some.injEq] at h
      subst h
      exact ⟨hn, hp, hs1, hs2⟩
    | some (p, i) =>
      rw [hm] at h
      simp only at h
      have hi := (maxExcess_some r hm).2
      have hpush : (push r st.B p).getD st.B = ⟨p, [⟨0, 0, p, 0⟩], 1, p, 0⟩ := by unfold push; rw [hf]; rfl
      have hstep : pivotStep r st p i = ⟨(mtf r n ⟨p, [⟨0, 0, p, 0⟩], 1, p, 0⟩ (st.front.take st.s)).1.pop,
          p :: (mtf r n ⟨p, [⟨0, 0, p, 0⟩], 1, p, 0⟩ (st.front.take st.s)).2.1, st.front.drop st.s ++ st.back.eraseIdx i,
          (mtf r n ⟨p, [⟨0, 0, p, 0⟩], 1, p, 0⟩ (st.front.take st.s)).2.2 + 1⟩ := by
        unfold pivotStep
        rw [hpush]
        simp
      have hm := mtf_any r n ⟨p, [⟨0, 0, p, 0⟩], 1, p, 0⟩ (st.front.take st.s) ⟨by simp, le_rfl⟩
      rw [hstep] at h
      generalize mtf r n ⟨p, [⟨0, 0, p, 0⟩], 1, p, 0⟩ (st.front.take st.s) = res at h hm
      have k1 : res.1.pop.frames = [] := by
        show res.1.frames.tail = []
        rw [hm.2.1]; rfl
      have k2 : 0 ≤ res.1.pop.curR := hm.1.2
      have k3 : ((p :: res.2.1) ++ (st.front.drop st.s ++ st.back.eraseIdx i)).Perm l := by
        refine List.Perm.trans ?_ hp
        have hlt : i < st.back.length := (List.getElem?_eq_some_iff.1 hi).1
        have hpe : st.back[i] = p := (List.getElem?_eq_some_iff.1 hi).2
        have h1 : (p :: st.back.eraseIdx i).Perm st.back := by
          have := List.getElem_cons_eraseIdx_perm hlt
          rw [hpe] at this
          exact this
        have h2 : (res.2.1 ++ (st.front.drop st.s ++ p :: st.back.eraseIdx i)).Perm (st.front ++ st.back) := by
          have : (res.2.1 ++ st.front.drop st.s).Perm st.front := by
            have := hm.2.2.append_right (st.front.drop st.s)
            rw [List.take_append_drop] at this
            exact this
          rw [← List.append_assoc]
          exact this.append h1
        refine List.Perm.trans ?_ h2
        rw [← List.append_assoc, ← List.append_assoc]
        exact List.perm_middle.symm
      split_ifs at h
      · exact pivotLoop_any r fuel _ st' k1 k2 k3 (Nat.le_add_left _ _) (List.cons_ne_nil _ _) h
      · simp only [Option.some.injEq] at h
        subst h
        exact ⟨k2, k3, Nat.le_add_left _ _, List.cons_ne_nil _ _⟩

theorem build_any (r : Rounding 53) {fuel : Nat} {l : List (Fin n → ℝ)} {st : State n} (h : build r fuel l = some st) :
    0 ≤ st.B.curR ∧ (st.front ++ st.back).Perm l ∧ 1 ≤ st.s ∧ st.front ≠ [] := by
  match l with
  | [] => simp [build] at h
  | p :: ps =>
    have h' : pivotLoop r fuel ⟨(mtf r (n + 1) Basis.reset [p]).1, (mtf r (n + 1) Basis.reset [p]).2.1, ps, (mtf r (n + 1) Basis.reset [p]).2.2⟩ = some st := h
    rw [mtf_first] at h'
    exact pivotLoop_any r fuel _ st rfl le_rfl (List.Perm.refl _) le_rfl (List.cons_ne_nil _ _) h'

theorem maxError_ge (r : Rounding 53) (st : State n) : (∀ p ∈ st.front ++ st.back, excess r st.B p ≤ maxError r st) ∧
    ∀ p ∈ (st.front ++ st.back).take st.s, |excess r st.B p| ≤ maxError r st := by
  unfold maxError
  simp only
  have h2 : ∀ p ∈ (st.front ++ st.back).take st.s, |excess r st.B p| ≤ ((st.front ++ st.back).drop st.s).foldl (fun m p => if excess r st.B p > m then excess r st.B p else m)
      (((st.front ++ st.back).take st.s).foldl (fun m p => if |excess r st.B p| > m then |excess r st.B p| else m) 0) := fun p hp =>
    ((foldl_max_ge (fun p => |excess r st.B p|) _ 0).2 p hp).trans (foldl_max_ge (excess r st.B) _ _).1
  refine ⟨fun p hp => ?_, h2⟩
  rw [← List.take_append_drop st.s (st.front ++ st.back)] at hp
  rcases List.mem_append.1 hp with hp | hp
  · exact (le_abs_self _).trans (h2 p hp)
  · exact (foldl_max_ge (excess r st.B) _ _).2 p hp

end WFMath.Fl.Miniball
