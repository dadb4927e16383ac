/- C77, C91: printing and parsing polygons; termination of the readers. -/
import Verif.Props.Stream
import Verif.Props.PolyEdit
import Verif.Props.BoundingSphere

namespace WFMath
open Spec Matrix
variable {n : Nat}

/-! ### Polygon<2> -/

theorem readCorners_write {N : NumIO} {rnd : ℝ → ℝ} (hN : PrintsBack N rnd) (junk : Char) (rest : List Char) :
    ∀ (ps : List (Pt (n + 1))) (fuel : Nat) (prev : Char), ps ≠ [] → ps.length ≤ fuel →
      readCorners N junk (n + 1) fuel prev ⟨writeCorners N ps ++ rest, false⟩ =
        .ok (ps.map fun p => ⟨fun i => rnd (p.elem i), true⟩) ⟨rest, false⟩ := by
  intro ps
  induction ps with
  | nil => intro _ _ h; exact absurd rfl h
  | cons p ps ih =>
    intro fuel prev _ hf
    obtain ⟨fuel, rfl⟩ : ∃ f, fuel = f + 1 := ⟨fuel - 1, by simp at hf; omega⟩
    have e : writeCorners N (p :: ps) ++ rest =
        [] ++ (p.print N ++ ((if ps = [] then ')' else ',') :: (writeCorners N ps ++ rest))) := by
      simp [writeCorners]
    rw [readCorners, e, Pt.read_print hN junk p [] _ (by simp)]
    simp only [Read.bind]
    by_cases hr : ps = []
    · subst hr
      simp only [if_true, writeCorners, List.nil_append]
      rw [getChar_char _ _ _ (by decide)]
      simp
    · simp only [if_neg hr]
      rw [getChar_char _ _ _ (by decide)]
      simp only [ne_eq, not_true_eq_false, if_false, show (',' : Char) ≠ ')' by decide]
      rw [ih fuel ',' hr (by simp at hf; omega)]
      rfl

/-- C77: a Polygon<2> with any number of corners comes back with the printed corners, consuming exactly the text. -/
theorem C77_polygon2 {N : NumIO} {rnd : ℝ → ℝ} (hN : PrintsBack N rnd) (junk : Char) (ps : Corners 2) (fuel : Nat)
    (hf : ps.length ≤ fuel) (rest : List Char) :
    Corners.read fuel N junk ⟨ps.print N ++ rest, false⟩ =
      .ok (ps.map fun p => ⟨fun i => rnd (p.elem i), true⟩) ⟨rest, false⟩ := by
  unfold Corners.read Corners.print
  by_cases h : ps = []
  · subst h
    have e : lblEmpty ++ rest = [] ++ '<' :: (['e','m','p','t','y'] ++ '>' :: rest) := by simp [lblEmpty]
    rw [if_pos rfl, e, skipTo_label isOpen '<' _ (by decide) (by decide) _ _ (by decide)]
    simp only [afterSkip, if_true]
    rw [skipTo_label isClose '>' _ (by decide) (by decide) _ _ (by decide)]
    rfl
  · have e : lblPolygon ++ writeCorners N ps ++ rest = ['P','o','l','y','g','o','n',':',' '] ++ '(' :: (writeCorners N ps ++ rest) := by
      simp [lblPolygon]
    rw [if_neg h, e, skipTo_label isOpen '(' _ (by decide) (by decide) _ _ (by decide)]
    simp only [afterSkip, show ('(' : Char) ≠ '<' by decide, if_false]
    exact readCorners_write hN junk rest ps fuel '(' h hf

/-- Non-vacuity: a triangle. -/
example : Corners.read 5 unaryIO 'x' ⟨Corners.print unaryIO [⟨![0, 0], true⟩, ⟨![1, 0], true⟩, ⟨![0, 1], true⟩] ++ ['!'], false⟩ =
    .ok [⟨![0, 0], true⟩, ⟨![1, 0], true⟩, ⟨![0, 1], true⟩] ⟨['!'], false⟩ := by
  rw [C77_polygon2 unaryIO_printsBack 'x' _ 5 (by simp) ['!']]
  have : ∀ a b : ℝ, (fun i => ((⌊(![a, b] : Fin 2 → ℝ) i⌋₊ : ℕ) : ℝ)) = ![((⌊a⌋₊ : ℕ) : ℝ), ((⌊b⌋₊ : ℕ) : ℝ)] := by
    intro a b; funext i; fin_cases i <;> rfl
  simp [this]

/-! ### Polygon<3> -/

theorem expand_true {o : Orient n} {p : Pt n} {eps : ℝ} (h : o.ax0.valid = false ∨ o.ax1.valid = false) : (o.expand p eps).1 = true := by
  unfold Orient.expand
  by_cases h0 : o.origin.valid = false
  · rw [if_pos h0]
  · rw [if_neg h0]
    simp only
    split_ifs <;> first | rfl | simp_all

theorem expand_ax0 {o o' : Orient n} {p : Pt n} {x : Pt 2} {b : Bool} {eps : ℝ} (h0 : o.origin.valid = false)
    (h : o.expand p eps = (b, o', x)) : o'.ax0 = o.ax0 ∧ o'.ax1 = o.ax1 := by
  unfold Orient.expand at h
  rw [if_pos h0] at h
  simp only [Prod.mk.injEq] at h
  rw [← h.2.1]; exact ⟨rfl, rfl⟩

theorem expand_ax1 {o o' : Orient n} {p : Pt n} {x : Pt 2} {b : Bool} {eps : ℝ} (h0 : o.ax0.valid = false)
    (h : o.expand p eps = (b, o', x)) : o'.ax1 = o.ax1 := by
  unfold Orient.expand at h
  by_cases h1 : o.origin.valid = false
  · rw [if_pos h1] at h
    simp only [Prod.mk.injEq] at h
    rw [← h.2.1]
  · rw [if_neg h1] at h
    simp only [h0, if_true] at h
    split_ifs at h <;> simp only [Prod.mk.injEq] at h <;> rw [← h.2.1]

/-- Adding points one after another: all those added are in the plane found, within the tolerance. -/
theorem expandAll_spec {ps : List (Pt 3)} {eps : ℝ} (he : 0 ≤ eps) : ∀ (order : List Nat) (o o' : Orient 3) (f f' : Nat → Pt 2),
    order.Nodup → OrientOk o → expandAll ps eps order o f = some (o', f') →
    OrientOk o' ∧ (o.origin.valid = true → o'.origin = o.origin) ∧ (o.ax0.valid = true → o'.ax0 = o.ax0) ∧
    (o.ax1.valid = true → o'.ax1 = o.ax1) ∧ (∀ i, i ∉ order → f' i = f i) ∧
    ∀ i ∈ order, (f' i).valid = true ∧ Placed o' (f' i) ∧
      CloseTo eps (len (o'.at ((f' i).elem 0) ((f' i).elem 1) - (ps.getD i Pt.default).elem)) (len ((ps.getD i Pt.default).elem - o'.origin.elem)) := by
  intro order
  induction order with
  | nil =>
    intro o o' f f' _ hok h
    simp only [expandAll, Option.some.injEq, Prod.mk.injEq] at h
    obtain ⟨rfl, rfl⟩ := h
    exact ⟨hok, fun _ => rfl, fun _ => rfl, fun _ => rfl, fun _ _ => rfl, by simp⟩
  | cons i is ih =>
    intro o o' f f' hnd hok h
    rw [List.nodup_cons] at hnd
    rw [expandAll] at h
    cases hx : o.expand (ps.getD i Pt.default) eps with
    | mk b r =>
      obtain ⟨o1, p⟩ := r
      cases b with
      | false => simp only [hx] at h; simp at h
      | true =>
        simp only [hx] at h
        obtain ⟨k1, k2, k3, k4, k5, k6, k7, k8, k9, k10⟩ := expand_spec he hok hx
        obtain ⟨j1, j2, j3, j4, j5, j6⟩ := ih o1 o' _ f' hnd.2 k1 h
        have horg := j2 k2
        have hv : o'.origin.valid = true := by rw [horg]; exact k2
        refine ⟨j1, fun hc => by rw [horg, k3 hc], ?_, ?_, ?_, ?_⟩
        · intro hc
          have := k5 hc
          rw [j3 (by rw [this]; exact hc), this]
        · intro hc
          have := k6 hc
          rw [j4 (by rw [this]; exact hc), this]
        · intro j hj
          rw [List.mem_cons, not_or] at hj
          rw [j5 j hj.2, Function.update_of_ne hj.1]
        · intro j hj
          rcases List.mem_cons.1 hj with rfl | hj
          · have e : f' j = p := by rw [j5 j hnd.1, Function.update_self]
            rw [e]
            refine ⟨k7, ⟨hv, k8.imp (fun hc => by rw [j3 hc]; exact hc) id, k9.imp (fun hc => by rw [j4 hc]; exact hc) id⟩, ?_⟩
            rw [at_mono horg j3 j4 k8 k9, horg]; exact k10
          · exact j6 j hj

theorem expandAll_three (ps : List (Pt 3)) (eps : ℝ) (order : List Nat) (f : Nat → Pt 2) (h : order.length ≤ 3) :
    expandAll ps eps order Orient.empty f ≠ none := by
  have step : ∀ (i : Nat) (is : List Nat) (o : Orient 3) (f : Nat → Pt 2), (o.ax0.valid = false ∨ o.ax1.valid = false) →
      ∃ o1 p, o.expand (ps.getD i Pt.default) eps = (true, o1, p) ∧
      expandAll ps eps (i :: is) o f = expandAll ps eps is o1 (Function.update f i p) := by
    intro i is o f hv
    have h1 := expand_true (p := ps.getD i Pt.default) (eps := eps) hv
    cases hx : o.expand (ps.getD i Pt.default) eps with
    | mk b r =>
      obtain ⟨o1, p⟩ := r
      rw [hx] at h1
      obtain rfl : b = true := h1
      exact ⟨o1, p, rfl, by rw [expandAll]; simp only [hx]⟩
  have e0 : (Orient.empty : Orient 3).origin.valid = false := rfl
  have e1 : (Orient.empty : Orient 3).ax0.valid = false := rfl
  have e2 : (Orient.empty : Orient 3).ax1.valid = false := rfl
  match order, h with
  | [], _ => simp [expandAll]
  | [a], _ =>
    obtain ⟨o1, p, -, h2⟩ := step a [] Orient.empty f (Or.inl e1)
    rw [h2]; simp [expandAll]
  | [a, b], _ =>
    obtain ⟨o1, p, h1, h2⟩ := step a [b] Orient.empty f (Or.inl e1)
    obtain ⟨a0, a1⟩ := expand_ax0 e0 h1
    obtain ⟨o2, q, h3, h4⟩ := step b [] o1 (Function.update f a p) (Or.inl (by rw [a0]; exact e1))
    rw [h2, h4]; simp [expandAll]
  | [a, b, c], _ =>
    obtain ⟨o1, p, h1, h2⟩ := step a [b, c] Orient.empty f (Or.inl e1)
    obtain ⟨a0, a1⟩ := expand_ax0 e0 h1
    obtain ⟨o2, q, h3, h4⟩ := step b [c] o1 (Function.update f a p) (Or.inl (by rw [a0]; exact e1))
    have b1 := expand_ax1 (by rw [a0]; exact e1) h3
    obtain ⟨o3, r, h5, h6⟩ := step c [] o2 (Function.update (Function.update f a p) b q) (Or.inr (by rw [b1, a1]; exact e2))
    rw [h2, h4, h6]; simp [expandAll]

theorem pickBest_spec {α : Type} (f : α → ℝ) : ∀ (l : List α) (d : ℝ) (b : Option α),
    (pickBest f l d b = b ∨ ∃ x ∈ l, pickBest f l d b = some x) ∧ ((∃ x ∈ l, d < f x) → ∃ x ∈ l, pickBest f l d b = some x) := by
  intro l
  induction l with
  | nil => intro d b; exact ⟨Or.inl rfl, by rintro ⟨x, hx, -⟩; simp at hx⟩
  | cons a l ih =>
    intro d b
    rw [pickBest]
    by_cases h : f a > d
    · rw [if_pos h]
      have key : ∃ x ∈ a :: l, pickBest f l (f a) (some a) = some x := by
        rcases (ih (f a) (some a)).1 with h1 | ⟨x, hx, h1⟩
        · exact ⟨a, by simp, h1⟩
        · exact ⟨x, by simp [hx], h1⟩
      exact ⟨Or.inr key, fun _ => key⟩
    · rw [if_neg h]
      refine ⟨?_, ?_⟩
      · rcases (ih d b).1 with h1 | ⟨x, hx, h1⟩
        · exact Or.inl h1
        · exact Or.inr ⟨x, by simp [hx], h1⟩
      · rintro ⟨x, hx, hd⟩
        rcases List.mem_cons.1 hx with rfl | hx
        · exact absurd hd h
        · obtain ⟨y, hy, h1⟩ := (ih d b).2 ⟨x, hx, hd⟩
          exact ⟨y, by simp [hy], h1⟩

theorem sloppyDist3_nonneg (p q : Pt 3) : 0 ≤ p.sloppyDist3 q := by
  have := upper3 p q
  refine le_trans ?_ this
  rw [eucl_eq_len]; exact len_nonneg _

theorem mem_pairsBelow {k i j : Nat} : (i, j) ∈ pairsBelow k ↔ i < j ∧ j < k := by
  unfold pairsBelow
  simp only [List.mem_flatMap, List.mem_range, List.mem_map, List.mem_filter, decide_eq_true_eq, Prod.mk.injEq]
  constructor
  · rintro ⟨a, h1, b, ⟨h2, h3⟩, rfl, rfl⟩; exact ⟨h3, h2⟩
  · rintro ⟨h1, h2⟩; exact ⟨i, by omega, j, ⟨h2, h1⟩, rfl, rfl⟩

/-- The reader adds every point exactly once. -/
theorem polyOrder_spec (ps : List (Pt 3)) : ∃ order, polyOrder ps = some order ∧ order.Nodup ∧ (∀ i, i ∈ order ↔ i < ps.length) ∧
    (ps.length ≤ 3 → order.length ≤ 3) := by
  unfold polyOrder
  simp only
  by_cases h : ps.length < 3
  · rw [if_pos h]
    exact ⟨_, rfl, List.nodup_range, fun i => List.mem_range, fun _ => by simp; omega⟩
  · rw [if_neg h]
    generalize hF : (fun q : Nat × Nat => (ps.getD q.1 Pt.default).sloppyDist3 (ps.getD q.2 Pt.default)) = F
    have hF0 : ∀ q, -1 < F q := by
      intro q; rw [← hF]
      have := sloppyDist3_nonneg (ps.getD q.1 Pt.default) (ps.getD q.2 Pt.default)
      show (-1 : ℝ) < _; linarith
    obtain ⟨⟨p1, p2⟩, hm, h1⟩ := (pickBest_spec F (pairsBelow ps.length) (-1) none).2
      ⟨(0, 1), mem_pairsBelow.2 ⟨by omega, by omega⟩, hF0 _⟩
    rw [mem_pairsBelow] at hm
    rw [h1]
    simp only
    generalize hG : (fun i : Nat => floatMin ((ps.getD i Pt.default).sloppyDist3 (ps.getD p1 Pt.default))
      ((ps.getD i Pt.default).sloppyDist3 (ps.getD p2 Pt.default))) = G
    have hG0 : ∀ q, -1 < G q := by
      intro q; rw [← hG]
      have a := sloppyDist3_nonneg (ps.getD q Pt.default) (ps.getD p1 Pt.default)
      have b := sloppyDist3_nonneg (ps.getD q Pt.default) (ps.getD p2 Pt.default)
      show (-1 : ℝ) < floatMin _ _
      unfold floatMin; split_ifs <;> linarith
    obtain ⟨z, hz⟩ : ∃ z, z < ps.length ∧ z ≠ p1 ∧ z ≠ p2 := by
      by_cases a0 : 0 ≠ p1 ∧ 0 ≠ p2
      · exact ⟨0, by omega, a0⟩
      by_cases a1 : 1 ≠ p1 ∧ 1 ≠ p2
      · exact ⟨1, by omega, a1⟩
      exact ⟨2, by omega, by omega⟩
    obtain ⟨p3, hm3, h3⟩ := (pickBest_spec G ((List.range ps.length).filter fun i => i ≠ p1 ∧ i ≠ p2) (-1) none).2
      ⟨z, by simpa using hz, hG0 z⟩
    simp only [List.mem_filter, List.mem_range, decide_eq_true_eq] at hm3
    rw [h3]
    refine ⟨_, rfl, ?_, ?_, ?_⟩
    · have hp12 : p1 ≠ p2 := by omega
      simp only [List.nodup_cons, List.mem_cons, List.mem_filter, List.mem_range, decide_eq_true_eq, not_or]
      refine ⟨⟨hp12, Ne.symm hm3.2.1, by tauto⟩, ⟨Ne.symm hm3.2.2, by tauto⟩, by tauto, ?_⟩
      exact List.Nodup.filter _ List.nodup_range
    · intro i
      simp only [List.mem_cons, List.mem_filter, List.mem_range, decide_eq_true_eq]
      constructor
      · rintro (rfl | rfl | rfl | hi)
        · omega
        · omega
        · exact hm3.1
        · exact hi.1
      · intro hi
        by_cases h1 : i = p1
        · exact Or.inl h1
        by_cases h2 : i = p2
        · exact Or.inr (Or.inl h2)
        by_cases h4 : i = p3
        · exact Or.inr (Or.inr (Or.inl h4))
        exact Or.inr (Or.inr (Or.inr ⟨hi, h1, h2, h4⟩))
    · intro hl
      have h3' : ps.length = 3 := by omega
      have : (List.range ps.length).filter (fun i => decide (i ≠ p1 ∧ i ≠ p2 ∧ i ≠ p3)) = [] := by
        rw [List.filter_eq_nil_iff]
        intro i hi
        rw [List.mem_range] at hi
        simp only [decide_eq_true_eq]
        omega
      simp only [List.length_cons]
      rw [this]; simp

/-- The tolerance of a polygon reader. -/
theorem polyTol_nonneg (prec : ℤ) : 0 ≤ floatMax (getEpsilon prec) epsilon := by
  have := epsilon_pos
  have h : 0 ≤ getEpsilon prec := by unfold getEpsilon; positivity
  unfold floatMax; split_ifs <;> linarith

/-- What the Polygon<3> reader makes of the list of corners read. -/
theorem Poly.read_text {N : NumIO} {rnd : ℝ → ℝ} (hN : PrintsBack N rnd) (junk : Char) (prec : ℤ) (ps : List (Pt 3)) (hne : ps ≠ [])
    (fuel : Nat) (hf : ps.length ≤ fuel) (r : Poly 3) (rest : List Char) :
    (Poly.read fuel N junk prec r ⟨lblPolygon ++ (writeCorners N ps ++ rest), false⟩ = .parseError ∧ 3 < ps.length) ∨
    ∃ s, Poly.read fuel N junk prec r ⟨lblPolygon ++ (writeCorners N ps ++ rest), false⟩ = .ok s ⟨rest, false⟩ ∧
      s.numCorners = ps.length ∧ s.valid = true ∧ PolyOk s ∧
      ∀ i p, ps[i]? = some p → ∃ c, s.getCorner i = some c ∧ c.valid = true ∧
        CloseTo (floatMax (getEpsilon prec) epsilon) (len (c.elem - fun k => rnd (p.elem k))) (len ((fun k => rnd (p.elem k)) - s.orient.origin.elem)) := by
  have e : lblPolygon ++ (writeCorners N ps ++ rest) = ['P','o','l','y','g','o','n',':',' '] ++ '(' :: (writeCorners N ps ++ rest) := by
    simp [lblPolygon]
  generalize hqs : (ps.map fun p : Pt 3 => (⟨fun i => rnd (p.elem i), true⟩ : Pt 3)) = qs
  have hlen : qs.length = ps.length := by rw [← hqs]; simp
  obtain ⟨order, h1, h2, h3, h4⟩ := polyOrder_spec qs
  have hread : Poly.read fuel N junk prec r ⟨lblPolygon ++ (writeCorners N ps ++ rest), false⟩ =
      match expandAll qs (floatMax (getEpsilon prec) epsilon) order Orient.empty (fun _ => Pt.default) with
      | none => .parseError
      | some (o, f) => .ok ⟨o, (List.range qs.length).map f⟩ ⟨rest, false⟩ := by
    unfold Poly.read
    rw [e, skipTo_label isOpen '(' _ (by decide) (by decide) _ _ (by decide)]
    simp only [afterSkip, show ('(' : Char) ≠ '<' by decide, if_false]
    rw [readCorners_write hN junk rest ps fuel '(' hne hf, hqs]
    simp only [Read.bind, h1]
    rfl
  rw [hread]
  cases hx : expandAll qs (floatMax (getEpsilon prec) epsilon) order Orient.empty (fun _ => Pt.default) with
  | none =>
    left
    refine ⟨rfl, ?_⟩
    by_contra hc
    exact expandAll_three qs _ order _ (h4 (by omega)) hx
  | some of =>
    obtain ⟨o, f⟩ := of
    right
    obtain ⟨k1, -, -, -, -, k6⟩ := expandAll_spec (polyTol_nonneg prec) order _ _ _ _ h2 orientOk_empty hx
    refine ⟨_, rfl, by simp [Poly.numCorners, hlen], ?_, ⟨k1, ?_⟩, ?_⟩
    · simp only [Poly.valid, Corners.polyValid, List.all_eq_true, List.mem_map, List.mem_range]
      rintro x ⟨i, hi, rfl⟩
      exact (k6 i ((h3 i).2 hi)).1
    · simp only [List.mem_map, List.mem_range]
      rintro x ⟨i, hi, rfl⟩
      exact (k6 i ((h3 i).2 hi)).2.1
    · intro i p hp
      have hi : i < ps.length := by
        by_contra hc; rw [List.getElem?_eq_none (by omega)] at hp; simp at hp
      obtain ⟨v, ⟨p0, p1, p2⟩, c⟩ := k6 i ((h3 i).2 (by omega))
      have hq : qs.getD i Pt.default = ⟨fun k => rnd (p.elem k), true⟩ := by
        rw [← hqs, List.getD, List.getElem?_map, hp]; rfl
      have hc := convert_eq p0 p1 p2
      refine ⟨⟨o.at ((f i).elem 0) ((f i).elem 1), (f i).valid⟩, ?_, v, ?_⟩
      · rw [getCorner_of (p := f i)]
        · exact hc
        · show ((List.range qs.length).map f)[i]? = _
          rw [List.getElem?_map, List.getElem?_range (by omega)]; rfl
      · rw [hq] at c; exact c

/-- The text printed for a Polygon<3> with exactly three corners. -/
theorem Poly.print_three {N : NumIO} {s : Poly 3} {a b c : Pt 3} (hk : s.numCorners = 3) (ha : s.getCorner 0 = some a)
    (hb : s.getCorner 1 = some b) (hc : s.getCorner 2 = some c) :
    s.print N = some (lblPolygon ++ writeCorners N [a, b, c]) := by
  unfold Poly.print
  rw [hk, if_neg (by omega)]
  simp [List.range_succ, ha, hb, hc, writeCornersDim, writeCorners]

/-- C77, what holds for Polygon<3>: one with exactly three corners comes back with three corners, each the printed one up to the
tolerance of the stream (relative to the distance from the corner added first). -/
theorem C77_polygon3_partial {N : NumIO} {rnd : ℝ → ℝ} (hN : PrintsBack N rnd) (junk : Char) (prec : ℤ) (s r : Poly 3) (fuel : Nat)
    (hf : 3 ≤ fuel) (rest : List Char) (hk : s.numCorners = 3) (hc : ∀ i < 3, s.getCorner i ≠ none) :
    ∃ text t, s.print N = some text ∧ Poly.read fuel N junk prec r ⟨text ++ rest, false⟩ = .ok t ⟨rest, false⟩ ∧
      t.numCorners = 3 ∧ t.valid = true ∧
      ∀ i < 3, ∃ p q, s.getCorner i = some p ∧ t.getCorner i = some q ∧ q.valid = true ∧
        len (q.elem - fun k => rnd (p.elem k)) ≤ 2 * epsilon + Real.sqrt (floatMax (getEpsilon prec) epsilon + 2 * epsilon) *
          len ((fun k => rnd (p.elem k)) - t.orient.origin.elem) := by
  obtain ⟨a, ha⟩ := Option.ne_none_iff_exists'.1 (hc 0 (by omega))
  obtain ⟨b, hb⟩ := Option.ne_none_iff_exists'.1 (hc 1 (by omega))
  obtain ⟨c, hc'⟩ := Option.ne_none_iff_exists'.1 (hc 2 (by omega))
  have hp := Poly.print_three (N := N) hk ha hb hc'
  rcases Poly.read_text hN junk prec [a, b, c] (by simp) fuel (by simpa using hf) r rest with ⟨-, h⟩ | ⟨t, h1, h2, h3, -, h4⟩
  · simp at h
  refine ⟨_, t, hp, by rw [List.append_assoc]; exact h1, by simpa using h2, h3, ?_⟩
  have key : ∀ (i : Nat) (p : Pt 3), [a, b, c][i]? = some p → s.getCorner i = some p → ∃ p q, s.getCorner i = some p ∧ t.getCorner i = some q ∧ q.valid = true ∧
      len (q.elem - fun k => rnd (p.elem k)) ≤ 2 * epsilon + Real.sqrt (floatMax (getEpsilon prec) epsilon + 2 * epsilon) *
          len ((fun k => rnd (p.elem k)) - t.orient.origin.elem) := by
    intro i p hi hs
    obtain ⟨q, q1, q2, q3⟩ := h4 i p hi
    exact ⟨p, q, hs, q1, q2, CloseTo.le (polyTol_nonneg prec) (len_nonneg _) q3⟩
  intro i hi
  interval_cases i
  · exact key 0 a rfl ha
  · exact key 1 b rfl hb
  · exact key 2 c rfl hc'

theorem writeCornersDim_ge (N : NumIO) : ∀ (ps : List (Pt 3)) (i : Nat), 2 ≤ i → ps ≠ [] → ∃ p qs rest, ps = p :: qs ∧
    writeCornersDim N i ps = p.print N ++ ')' :: rest := by
  intro ps i hi hne
  match ps with
  | p :: qs => exact ⟨p, qs, writeCornersDim N (i + 1) qs, rfl, by rw [writeCornersDim, if_neg (by omega)]⟩

theorem mapM_some {α β : Type} {f : α → Option β} : ∀ {l : List α} {m : List β}, l.mapM f = some m → m.length = l.length ∧
    ∀ (i : Nat) x, l[i]? = some x → f x = m[i]? := by
  intro l
  induction l with
  | nil => intro m h; simp at h; subst h; simp
  | cons a l ih =>
    intro m h
    rw [List.mapM_cons] at h
    cases ha : f a with
    | none => rw [ha] at h; simp at h
    | some b =>
      cases hl : l.mapM f with
      | none => rw [ha, hl] at h; simp at h
      | some m' =>
        rw [ha, hl] at h
        simp at h
        subst h
        obtain ⟨h1, h2⟩ := ih hl
        refine ⟨by simp [h1], ?_⟩
        intro i x hx
        cases i with
        | zero => simp at hx; subst hx; simp [ha]
        | succ i => simp at hx ⊢; exact h2 i x hx

/-- C77 is false for Polygon<3>: a polygon with one or two corners prints as a text that its reader refuses, and one with more than
three corners comes back with three only, with no error. -/
theorem C77_polygon3_false {N : NumIO} {rnd : ℝ → ℝ} (hN : PrintsBack N rnd) (junk : Char) (prec : ℤ) (s r : Poly 3) (fuel : Nat)
    (hf : 3 ≤ fuel) (text : List Char) (hp : s.print N = some text) (h0 : s.numCorners ≠ 0) :
    (s.numCorners < 3 → Poly.read fuel N junk prec r ⟨text, false⟩ = .parseError) ∧
    (3 < s.numCorners → ∃ t rest, Poly.read fuel N junk prec r ⟨text, false⟩ = .ok t ⟨rest, false⟩ ∧ t.numCorners = 3 ∧ rest ≠ []) := by
  unfold Poly.print at hp
  rw [if_neg h0] at hp
  cases hm : (List.range s.numCorners).mapM s.getCorner with
  | none => rw [hm] at hp; simp at hp
  | some ps =>
    rw [hm] at hp
    simp only [Option.map_some, Option.some.injEq] at hp
    have hl := (mapM_some hm).1
    rw [List.length_range] at hl
    subst hp
    obtain ⟨fuel, rfl⟩ : ∃ f, fuel = f + 3 := ⟨fuel - 3, by omega⟩
    constructor
    · intro h3
      have head : ∀ txt : List Char, Poly.read (fuel + 3) N junk prec r ⟨lblPolygon ++ txt, false⟩ =
          (readCorners N junk 3 (fuel + 3) '(' ⟨txt, false⟩).bind fun ps s =>
            match polyOrder ps with
            | none => .abort
            | some order =>
              match expandAll ps (floatMax (getEpsilon prec) epsilon) order Orient.empty (fun _ => Pt.default) with
              | none => .parseError
              | some (o, f) => .ok ⟨o, (List.range ps.length).map f⟩ s := by
        intro txt
        have e : lblPolygon ++ txt = ['P','o','l','y','g','o','n',':',' '] ++ '(' :: txt := by simp [lblPolygon]
        unfold Poly.read
        rw [e, skipTo_label isOpen '(' _ (by decide) (by decide) _ _ (by decide)]
        simp only [afterSkip, show ('(' : Char) ≠ '<' by decide, if_false]
        rfl
      have hend : ∀ fuel prev, readCorners N junk 3 (fuel + 1) prev ⟨[], false⟩ = .parseError := by
        intro fuel prev
        rw [readCorners]
        have : Pt.read N junk 3 ⟨[], false⟩ = .parseError := by
          refine ((C76_rejects N junk []).1 ?_).2
          rintro d rest ⟨t, h, -⟩
          simp at h
        rw [this]; rfl
      have one : ∀ (p : Pt 3) (fuel : Nat) (prev : Char) (rest : List Char), readCorners N junk 3 (fuel + 1) prev ⟨p.print N ++ ',' :: rest, false⟩ =
          (readCorners N junk 3 fuel ',' ⟨rest, false⟩).bind fun ps s' => .ok (⟨fun i => rnd (p.elem i), true⟩ :: ps) s' := by
        intro p fuel prev rest
        have := Pt.read_print hN junk p [] (',' :: rest) (by simp)
        rw [List.nil_append] at this
        rw [readCorners, this]
        simp only [Read.bind]
        rw [getChar_char _ _ _ (by decide)]
        simp
      rw [head]
      have key : readCorners N junk 3 (fuel + 3) '(' ⟨writeCornersDim N 0 ps, false⟩ = .parseError := by
        match ps, hl with
        | [], hl => simp at hl; omega
        | [a], _ =>
          have e : writeCornersDim N 0 [a] = a.print N ++ ',' :: [] := by simp [writeCornersDim]
          rw [e, one, hend]; rfl
        | [a, b], _ =>
          have e : writeCornersDim N 0 [a, b] = a.print N ++ ',' :: (b.print N ++ ',' :: []) := by simp [writeCornersDim]
          rw [e, one, one, hend]; rfl
        | a :: b :: c :: ds, hl => simp at hl; omega
      rw [key]; rfl
    · intro h3
      match ps, hl with
      | [], hl => simp at hl; omega
      | [a], hl => simp at hl; omega
      | [a, b], hl => simp at hl; omega
      | [a, b, c], hl => simp at hl; omega
      | a :: b :: c :: d :: ds, hl =>
        have e : writeCornersDim N 0 (a :: b :: c :: d :: ds) = writeCorners N [a, b, c] ++ writeCornersDim N 3 (d :: ds) := by
          simp [writeCornersDim, writeCorners]
        rcases Poly.read_text hN junk prec [a, b, c] (by simp) (fuel + 3) (by simp) r (writeCornersDim N 3 (d :: ds)) with ⟨-, h⟩ | ⟨t, h1, h2, -⟩
        · simp at h
        · refine ⟨t, _, by rw [e]; exact h1, by simpa using h2, ?_⟩
          simp [writeCornersDim]

/-- C77 is false for Polygon<3>: the text of the empty polygon leaves the variable it is read into as it was, corners and all. -/
theorem C77_empty_false (N : NumIO) (junk : Char) (prec : ℤ) (fuel : Nat) (r : Poly 3) :
    (Poly.empty : Poly 3).print N = some lblEmpty ∧ Poly.read fuel N junk prec r ⟨lblEmpty, false⟩ = .ok r ⟨[], false⟩ := by
  refine ⟨by simp [Poly.print, Poly.empty, Poly.numCorners], ?_⟩
  have e : lblEmpty = [] ++ '<' :: (['e','m','p','t','y'] ++ '>' :: []) := by simp [lblEmpty]
  unfold Poly.read
  rw [e, skipTo_label isOpen '<' _ (by decide) (by decide) _ _ (by decide)]
  simp only [afterSkip, if_true]
  rw [skipTo_label isClose '>' _ (by decide) (by decide) _ _ (by decide)]

/-- Non-vacuity: a polygon with two corners, one with three. -/
example : ∃ text, twoCorners.print unaryIO = some text ∧ Poly.read 5 unaryIO 'x' 6 Poly.empty ⟨text, false⟩ = .parseError := by
  have h : ∃ text, twoCorners.print unaryIO = some text := by
    unfold Poly.print
    rw [if_neg (by simp [Poly.numCorners, twoCorners])]
    simp [Poly.numCorners, twoCorners, List.range_succ, Poly.getCorner, Corners.getCorner, Orient.convert, Option.bind]
  obtain ⟨text, ht⟩ := h
  exact ⟨text, ht, (C77_polygon3_false unaryIO_printsBack 'x' 6 twoCorners Poly.empty 5 (by omega) text ht (by simp [Poly.numCorners, twoCorners])).1
    (by simp [Poly.numCorners, twoCorners])⟩

example : threeCorners.numCorners = 3 ∧ ∀ i < 3, threeCorners.getCorner i ≠ none := by
  refine ⟨by simp [Poly.numCorners, threeCorners], ?_⟩
  intro i hi
  obtain ⟨k, hk⟩ := Built.edited (dbg := true) epsilon_pos.le threeCorners_built
  interval_cases i <;> simp [threeCorners, Poly.getCorner, Corners.getCorner, Orient.convert, Option.bind]

/-! ### C91: termination -/

/-- C91: reading a vector, a point or a matrix ends for every text and every state of the stream: with a value or with `ParseError`. -/
theorem C91_lists (N : NumIO) (junk : Char) (s : IStream) :
    ((∃ v s', Vec.read N junk (n + 1) s = .ok v s') ∨ Vec.read N junk (n + 1) s = .parseError) ∧
    ((∃ p s', Pt.read N junk (n + 1) s = .ok p s') ∨ Pt.read N junk (n + 1) s = .parseError) := by
  have key : (∃ d s', readCoords N junk (n + 1) s = .ok d s') ∨ readCoords N junk (n + 1) s = .parseError := by
    obtain ⟨t, f⟩ := s
    cases f with
    | true => exact Or.inr (readCoords_failed N junk n _ rfl)
    | false =>
      rcases readCoords_spec N junk n t with ⟨d, rest, -, h⟩ | ⟨-, h⟩
      · exact Or.inl ⟨d, _, h⟩
      · exact Or.inr h
  unfold Vec.read Pt.read
  rcases key with ⟨d, s', h⟩ | h
  · rw [h]; exact ⟨Or.inl ⟨_, _, rfl⟩, Or.inl ⟨_, _, rfl⟩⟩
  · rw [h]; exact ⟨Or.inr rfl, Or.inr rfl⟩

/-- C91 is false for the shapes: on a text without `=` the readers of AxisBox, Ball, Segment and RotBox never return (unless the
uninitialised variable happens to hold `=`), on one without `(` that of Quaternion, on one without `(` and `<` those of polygons. -/
theorem C91_false (N : NumIO) (junk : Char) (t : List Char) :
    (isEq junk = false → (∀ c ∈ t, isEq c = false) → Box.read N junk n ⟨t, false⟩ = .hang ∧ Seg.read N junk n ⟨t, false⟩ = .hang ∧
      (∀ b : Ball n, Ball.read N junk b ⟨t, false⟩ = .hang) ∧
      ∀ L fuel prec (r : RBox n), RBox.read L fuel N junk prec r ⟨t, false⟩ = .hang) ∧
    (isParen junk = false → (∀ c ∈ t, isParen c = false) → ∀ q, Quat.read N junk q ⟨t, false⟩ = .hang) ∧
    (isOpen junk = false → (∀ c ∈ t, isOpen c = false) → ∀ fuel, Corners.read fuel N junk ⟨t, false⟩ = .hang ∧
      ∀ prec r, Poly.read fuel N junk prec r ⟨t, false⟩ = .hang) := by
  refine ⟨fun h1 h2 => ?_, fun h1 h2 q => ?_, fun h1 h2 fuel => ?_⟩
  · have h := skipTo_none isEq t junk h1 h2
    unfold Box.read Seg.read Ball.read RBox.read
    rw [h]
    exact ⟨rfl, rfl, fun _ => rfl, fun _ _ _ _ => rfl⟩
  · unfold Quat.read; rw [skipTo_none isParen t junk h1 h2]; rfl
  · have h := skipTo_none isOpen t junk h1 h2
    unfold Corners.read Poly.read
    rw [h]
    exact ⟨rfl, fun _ _ => rfl⟩

/-- C91, what holds for boxes and segments: the reader hangs only when there is no `=` in the text, or when a point has been read and
there is none after it. -/
theorem C91_box_partial (N : NumIO) (junk : Char) (t : List Char) :
    (Box.read N junk (n + 1) ⟨t, false⟩ = .hang ∨ Seg.read N junk (n + 1) ⟨t, false⟩ = .hang →
      (∀ c ∈ t, isEq c = false) ∨ ∃ lbl rest p u, t = lbl ++ '=' :: rest ∧ (∀ c ∈ lbl, isEq c = false) ∧
        Pt.read N junk (n + 1) ⟨rest, false⟩ = .ok p ⟨u, false⟩ ∧ ∀ c ∈ u, isEq c = false) := by
  have hsp : ∀ c, white c = true → isEq c = false := by
    intro c hc
    by_contra h
    rw [Bool.not_eq_false] at h
    have : c = '=' := by simpa [isEq] using h
    subst this
    exact absurd hc (by decide)
  intro h
  by_cases hno : ∀ c ∈ t, isEq c = false
  · exact Or.inl hno
  right
  push Not at hno
  obtain ⟨c, hc, hce⟩ := hno
  rw [Bool.ne_false_iff] at hce
  obtain ⟨lbl, c', rest, e, h1, h2, h3⟩ := skipTo_some isEq hsp t junk ⟨c, hc, hce⟩
  obtain rfl : c' = '=' := by simpa [isEq] using h2
  have hpt := readCoords_spec N junk n rest
  rcases hpt with ⟨d, u, -, hd⟩ | ⟨-, hd⟩
  · have hp : Pt.read N junk (n + 1) ⟨rest, false⟩ = .ok ⟨d, true⟩ ⟨u, false⟩ := by unfold Pt.read; rw [hd]; rfl
    refine ⟨lbl, rest, ⟨d, true⟩, u, e, h1, hp, ?_⟩
    by_contra hu
    push Not at hu
    obtain ⟨x, hx, hxe⟩ := hu
    rw [Bool.ne_false_iff] at hxe
    obtain ⟨lbl2, c2, rest2, -, -, -, h4⟩ := skipTo_some isEq hsp u '=' ⟨x, hx, hxe⟩
    have hb : ∀ {β : Type} (g : Pt (n + 1) → β), (afterSkip (skipTo isEq '=' ⟨u, false⟩) fun _ s =>
        (Pt.read N junk (n + 1) s).bind fun p s => .ok (g p) s) ≠ .hang := by
      intro β g
      rw [h4]
      simp only [afterSkip]
      rcases (C91_lists (n := n) N junk ⟨rest2, false⟩).2 with ⟨p, s', hq⟩ | hq
      · rw [hq]; simp [Read.bind]
      · rw [hq]; simp [Read.bind]
    rcases h with h | h
    · unfold Box.read at h
      rw [h3] at h
      simp only [afterSkip] at h
      rw [hp] at h
      exact hb (fun high => (⟨⟨d, true⟩, high⟩ : Box (n + 1))) h
    · unfold Seg.read at h
      rw [h3] at h
      simp only [afterSkip] at h
      rw [hp] at h
      exact hb (fun high => (⟨⟨d, true⟩, high⟩ : Seg (n + 1))) h
  · exfalso
    have hp : Pt.read N junk (n + 1) ⟨rest, false⟩ = .parseError := by unfold Pt.read; rw [hd]; rfl
    rcases h with h | h
    · unfold Box.read at h
      rw [h3] at h
      simp only [afterSkip] at h
      rw [hp] at h
      simp [Read.bind] at h
    · unfold Seg.read at h
      rw [h3] at h
      simp only [afterSkip] at h
      rw [hp] at h
      simp [Read.bind] at h

/-- The text `x` makes the box reader hang. -/
example : Box.read unaryIO 'u' 2 ⟨['x'], false⟩ = .hang :=
  ((C91_false unaryIO 'u' ['x']).1 (by decide) (by decide)).1

end WFMath
