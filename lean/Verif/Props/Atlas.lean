/- C78, C79: Atlas messages. -/
import Verif.Model.Atlas
import Verif.Lemmas.RotMatrix
import Verif.Props.RotBox

namespace WFMath
open Matrix
variable {n : Nat}

/-! ### Specification -/

/-- The message is a list of exactly these numbers. -/
def Elem.IsNums (a : Elem) (xs : List XNum) : Prop :=
  ∃ l, a = .list l ∧ l.map Elem.num? = xs.map some

theorem val_fin (x : ℝ) : (XNum.fin x).val = x := rfl

theorem list?_eq {a : Elem} {l : List Elem} : a.list? = some l ↔ a = .list l := by
  cases a <;> simp [Elem.list?]

theorem getD_num {l : List Elem} {k : Nat} (h : k < l.length) : l.getD k .none = l[k] := by
  simp [List.getD, h]

/-- The loop over the coordinates. -/
theorem arrayLoop_spec (l : List Elem) : ∀ (is : List (Fin n)) (d : Fin n → XNum), is.Nodup →
    ((∃ i ∈ is, (l.getD i.val .none).num? = none) → (arrayLoop l is d).2 = true) ∧
    ((∀ i ∈ is, (l.getD i.val .none).num? ≠ none) → (arrayLoop l is d).2 = false ∧
      ∀ i, (i ∈ is → (l.getD i.val .none).num? = some ((arrayLoop l is d).1 i)) ∧ (i ∉ is → (arrayLoop l is d).1 i = d i)) := by
  intro is
  induction is with
  | nil => intro d _; exact ⟨by rintro ⟨i, hi, -⟩; simp at hi, fun _ => ⟨rfl, fun i => ⟨by simp, fun _ => rfl⟩⟩⟩
  | cons a is ih =>
    intro d hnd
    rw [List.nodup_cons] at hnd
    rw [arrayLoop]
    cases hx : (l.getD a.val .none).num? with
    | none =>
      refine ⟨fun _ => rfl, fun h => absurd hx (h a (by simp))⟩
    | some x =>
      simp only
      obtain ⟨h1, h2⟩ := ih (Function.update d a x) hnd.2
      refine ⟨?_, ?_⟩
      · rintro ⟨i, hi, hn⟩
        rcases List.mem_cons.1 hi with rfl | hi
        · rw [hx] at hn; simp at hn
        · exact h1 ⟨i, hi, hn⟩
      · intro h
        obtain ⟨h3, h4⟩ := h2 (fun i hi => h i (by simp [hi]))
        refine ⟨h3, fun i => ⟨?_, ?_⟩⟩
        · intro hi
          rcases List.mem_cons.1 hi with rfl | hi
          · rw [hx, (h4 i).2 hnd.1, Function.update_self]
          · exact (h4 i).1 hi
        · intro hi
          rw [List.mem_cons, not_or] at hi
          rw [(h4 i).2 hi.2, Function.update_of_ne hi.1]

theorem isNums_ofFn {l : List Elem} {d : Fin n → XNum} :
    Elem.IsNums (.list l) (List.ofFn d) ↔ l.length = n ∧ ∀ i : Fin n, (l.getD i.val .none).num? = some (d i) := by
  constructor
  · rintro ⟨l', e, h⟩
    obtain rfl : l = l' := by injection e
    have hl : l.length = n := by simpa using congrArg List.length h
    refine ⟨hl, fun i => ?_⟩
    have := congrArg (fun t => t[i.val]?) h
    simp only [List.getElem?_map, List.getElem?_ofFn, i.isLt, dite_true, Option.map_some] at this
    rw [List.getElem?_eq_getElem (by omega)] at this
    rw [getD_num (by omega)]
    simpa using this
  · rintro ⟨hl, h⟩
    refine ⟨l, rfl, ?_⟩
    apply List.ext_getElem
    · simp [hl]
    · intro i h1 h2
      have hi : i < n := by simpa using h2
      have := h ⟨i, hi⟩
      rw [getD_num (by simpa using h1)] at this
      simpa using this

theorem arrayFromAtlas_spec (d0 : Fin n → XNum) (a : Elem) :
    (∀ d, arrayFromAtlas d0 a = (d, false) ↔ a.IsNums (List.ofFn d)) ∧
    ((∀ d : Fin n → XNum, ¬ a.IsNums (List.ofFn d)) ↔ (arrayFromAtlas d0 a).2 = true) := by
  unfold arrayFromAtlas
  cases hl : a.list? with
  | none =>
    have hno : ∀ d : Fin n → XNum, ¬ a.IsNums (List.ofFn d) := by
      rintro d ⟨l, rfl, -⟩; simp [Elem.list?] at hl
    exact ⟨fun d => ⟨fun h => by simp at h, fun h => absurd h (hno d)⟩, ⟨fun _ => rfl, fun _ => hno⟩⟩
  | some l =>
    obtain rfl := list?_eq.1 hl
    simp only
    by_cases hn : l.length ≠ n
    · have hno : ∀ d : Fin n → XNum, ¬ (Elem.list l).IsNums (List.ofFn d) := fun d h => hn (isNums_ofFn.1 h).1
      rw [if_pos hn]
      exact ⟨fun d => ⟨fun h => by simp at h, fun h => absurd h (hno d)⟩, ⟨fun _ => rfl, fun _ => hno⟩⟩
    · rw [if_neg hn]
      push Not at hn
      obtain ⟨h1, h2⟩ := arrayLoop_spec l (List.finRange n) d0 (List.nodup_finRange n)
      by_cases hx : ∃ i : Fin n, (l.getD i.val .none).num? = none
      · obtain ⟨i, hi⟩ := hx
        have ht := h1 ⟨i, List.mem_finRange i, hi⟩
        have hno : ∀ d : Fin n → XNum, ¬ (Elem.list l).IsNums (List.ofFn d) := by
          intro d h; have := (isNums_ofFn.1 h).2 i; rw [hi] at this; simp at this
        exact ⟨fun d => ⟨fun h => by rw [h] at ht; simp at ht, fun h => absurd h (hno d)⟩, ⟨fun _ => ht, fun _ => hno⟩⟩
      · push Not at hx
        obtain ⟨h3, h4⟩ := h2 (fun i _ => hx i)
        have hyes : (Elem.list l).IsNums (List.ofFn (arrayLoop l (List.finRange n) d0).1) :=
          isNums_ofFn.2 ⟨hn, fun i => (h4 i).1 (List.mem_finRange i)⟩
        refine ⟨fun d => ⟨?_, ?_⟩, ⟨fun h => absurd hyes (h _), fun h => by rw [h3] at h; simp at h⟩⟩
        · intro h; rw [h] at hyes; exact hyes
        · intro h
          have e : d = (arrayLoop l (List.finRange n) d0).1 := by
            funext i
            have := (isNums_ofFn.1 h).2 i
            rw [(h4 i).1 (List.mem_finRange i)] at this
            exact (Option.some.inj this).symm
          rw [e, ← h3]

/-! ### C79 for vectors and points -/

/-- C79: `fromAtlas` of a vector or a point throws exactly when the message is not a list of `dim` numbers. Otherwise the
coordinates are those numbers, and the object is valid exactly when they are all finite. -/
theorem C79_vector (p : XPt n) (a : Elem) :
    ((p.fromAtlas a).2 = true ↔ ∀ d : Fin n → XNum, ¬ a.IsNums (List.ofFn d)) ∧
    ((p.fromAtlas a).2 = false → a.IsNums (List.ofFn (p.fromAtlas a).1.elem) ∧
      ((p.fromAtlas a).1.valid = true ↔ ∀ i, ((p.fromAtlas a).1.elem i).isFinite = true)) := by
  obtain ⟨h1, h2⟩ := arrayFromAtlas_spec p.elem a
  unfold XPt.fromAtlas
  cases hx : arrayFromAtlas p.elem a with
  | mk d t =>
    rw [hx] at h2
    cases t with
    | true => exact ⟨by simp only [true_iff]; exact h2.2 rfl, by simp⟩
    | false =>
      refine ⟨by simp only [Bool.false_eq_true, false_iff]; intro h; simpa using h2.1 h, fun _ => ⟨(h1 d).1 hx, ?_⟩⟩
      simp [List.all_eq_true]

/-- C79 does not hold of the object left behind by an exception: a valid vector that is given the list `[inf, "x"]` stays valid, with
an infinite coordinate. -/
theorem C79_throw_false : ∃ (p : XPt 2) (a : Elem), p.valid = true ∧ (∀ i, (p.elem i).isFinite = true) ∧
    (p.fromAtlas a).2 = true ∧ (p.fromAtlas a).1.valid = true ∧ ((p.fromAtlas a).1.elem 0).isFinite = false := by
  refine ⟨⟨fun _ => .fin 1, true⟩, .list [.float .pinf, .str "x"], rfl, fun _ => rfl, ?_⟩
  have : (⟨fun _ => .fin 1, true⟩ : XPt 2).fromAtlas (.list [.float .pinf, .str "x"]) = (⟨Function.update (fun _ => .fin 1) 0 .pinf, true⟩, true) := by
    simp [XPt.fromAtlas, arrayFromAtlas, Elem.list?, List.finRange_succ, arrayLoop, Elem.num?]
  rw [this]
  simp [XNum.isFinite]

/-! ### C78 for vectors and points -/

theorem toAtlas_isNums (d : Fin n → XNum) : (arrayToAtlas d).IsNums (List.ofFn d) := by
  refine ⟨_, rfl, ?_⟩
  rw [List.map_ofFn, List.map_ofFn]; rfl

theorem fromAtlas_of_nums (p : XPt n) {a : Elem} {d : Fin n → ℝ} (h : a.IsNums (List.ofFn fun i => .fin (d i))) :
    p.fromAtlas a = (⟨fun i => .fin (d i), true⟩, false) := by
  unfold XPt.fromAtlas
  rw [((arrayFromAtlas_spec p.elem a).1 _).2 h]
  have : ((List.finRange n).all fun i => (XNum.fin (d i)).isFinite) = true := by simp [XNum.isFinite]
  simp only [this]

/-- C78: a valid vector comes back, whatever object it is read into. -/
theorem C78_vector (v : Vec n) (hv : v.valid = true) (p : XPt n) :
    p.fromAtlas (XPt.ofVec v).toAtlas = (XPt.ofVec v, false) := by
  have := fromAtlas_of_nums p (toAtlas_isNums fun i => XNum.fin (v.elem i))
  rw [show (XPt.ofVec v).toAtlas = arrayToAtlas fun i => .fin (v.elem i) from rfl, this]
  unfold XPt.ofVec; rw [hv]

/-- C78: a valid point comes back. -/
theorem C78_point (v : Pt n) (hv : v.valid = true) (p : XPt n) :
    p.fromAtlas (XPt.ofPt v).toAtlas = (XPt.ofPt v, false) := by
  have := fromAtlas_of_nums p (toAtlas_isNums fun i => XNum.fin (v.elem i))
  rw [show (XPt.ofPt v).toAtlas = arrayToAtlas fun i => .fin (v.elem i) from rfl, this]
  unfold XPt.ofPt; rw [hv]

/-! ### Quaternion -/

theorem isNums_four {l : List Elem} {x y z w : XNum} : (Elem.list l).IsNums [x, y, z, w] ↔
    l.length = 4 ∧ (l.getD 0 .none).num? = some x ∧ (l.getD 1 .none).num? = some y ∧ (l.getD 2 .none).num? = some z ∧
      (l.getD 3 .none).num? = some w := by
  have e : [x, y, z, w] = List.ofFn ![x, y, z, w] := by simp [List.ofFn_succ]
  rw [e, isNums_ofFn]
  constructor
  · rintro ⟨h1, h2⟩; exact ⟨h1, h2 0, h2 1, h2 2, h2 3⟩
  · rintro ⟨h1, a, b, c, d⟩
    refine ⟨h1, fun i => ?_⟩
    fin_cases i
    · exact a
    · exact b
    · exact c
    · exact d

/-- What `fromAtlas` makes of four finite numbers. -/
theorem quat_fromAtlas_fin (q : XQuat) (a : Elem) (x y z w : ℝ) (h : a.IsNums [.fin x, .fin y, .fin z, .fin w]) :
    q.fromAtlas a = if Real.sqrt (w ^ 2 + x ^ 2 + y ^ 2 + z ^ 2) ≤ epsilon then
        (⟨.fin w, ⟨![.fin x, .fin y, .fin z], false⟩, false, q.age⟩, false)
      else (⟨.fin (w / Real.sqrt (w ^ 2 + x ^ 2 + y ^ 2 + z ^ 2)), ⟨![.fin (x / Real.sqrt (w ^ 2 + x ^ 2 + y ^ 2 + z ^ 2)),
        .fin (y / Real.sqrt (w ^ 2 + x ^ 2 + y ^ 2 + z ^ 2)), .fin (z / Real.sqrt (w ^ 2 + x ^ 2 + y ^ 2 + z ^ 2))], true⟩, true, 1⟩, false) := by
  obtain ⟨l, rfl, h⟩ := h
  obtain ⟨h4, h0, h1, h2, h3⟩ := isNums_four.1 ⟨l, rfl, h⟩
  unfold XQuat.fromAtlas
  simp only [Elem.list?, h4, ne_eq, not_true_eq_false, if_false]
  have hl : arrayLoop l (List.finRange 3) q.vec.elem = (![.fin x, .fin y, .fin z], false) := by
    obtain ⟨-, hs⟩ := arrayLoop_spec l (List.finRange 3) q.vec.elem (List.nodup_finRange 3)
    obtain ⟨a1, a2⟩ := hs (by
      intro i _
      fin_cases i
      · show (l.getD 0 .none).num? ≠ _; rw [h0]; simp
      · show (l.getD 1 .none).num? ≠ _; rw [h1]; simp
      · show (l.getD 2 .none).num? ≠ _; rw [h2]; simp)
    refine Prod.ext ?_ a1
    funext i
    have := (a2 i).1 (List.mem_finRange i)
    fin_cases i
    · exact Option.some.inj (this.symm.trans h0)
    · exact Option.some.inj (this.symm.trans h1)
    · exact Option.some.inj (this.symm.trans h2)
  rw [hl]
  have hf : ((List.finRange 3).all fun i => ((![.fin x, .fin y, .fin z] : Fin 3 → XNum) i).isFinite) = true := by
    simp [List.finRange_succ, XNum.isFinite]
  simp only [hf, Bool.true_eq_false, if_false, h3]
  have hn : w * w + ∑ i, ((![.fin x, .fin y, .fin z] : Fin 3 → XNum) i).val * ((![.fin x, .fin y, .fin z] : Fin 3 → XNum) i).val =
      w ^ 2 + x ^ 2 + y ^ 2 + z ^ 2 := by
    rw [Fin.sum_univ_three]; simp only [Matrix.cons_val_zero, Matrix.cons_val_one, Matrix.cons_val_two, Matrix.head_cons, Matrix.tail_cons, val_fin]; ring
  simp only [XNum.isFinite, Bool.true_eq_false, if_false, val_fin] at hn ⊢
  simp only [hn]
  have hv : (fun i => XNum.fin (XNum.val ((![.fin x, .fin y, .fin z] : Fin 3 → XNum) i) / Real.sqrt (w ^ 2 + x ^ 2 + y ^ 2 + z ^ 2))) =
      ![.fin (x / Real.sqrt (w ^ 2 + x ^ 2 + y ^ 2 + z ^ 2)), .fin (y / Real.sqrt (w ^ 2 + x ^ 2 + y ^ 2 + z ^ 2)),
        .fin (z / Real.sqrt (w ^ 2 + x ^ 2 + y ^ 2 + z ^ 2))] := by
    funext i; fin_cases i <;> rfl
  split_ifs
  · rfl
  · rw [← hv]

/-- C78: a valid unit quaternion comes back with the same four components, valid. -/
theorem C78_quaternion (q : Quat) (hq : q.w ^ 2 + q.vec.elem ⬝ᵥ q.vec.elem = 1) (q0 : XQuat) :
    ∃ q', q0.fromAtlas (XQuat.ofQuat q).toAtlas = (q', false) ∧ q'.valid = true ∧ q'.vec.valid = true ∧ q'.w = .fin q.w ∧
      ∀ i, q'.vec.elem i = .fin (q.vec.elem i) := by
  have h := quat_fromAtlas_fin q0 (XQuat.ofQuat q).toAtlas (q.vec.elem 0) (q.vec.elem 1) (q.vec.elem 2) q.w ⟨_, rfl, by simp [Elem.num?, XQuat.ofQuat, XPt.ofVec]⟩
  have h1 : q.w ^ 2 + q.vec.elem 0 ^ 2 + q.vec.elem 1 ^ 2 + q.vec.elem 2 ^ 2 = 1 := by
    rw [← hq]; unfold dotProduct; rw [Fin.sum_univ_three]; ring
  have he := epsilon_lt
  norm_num at he
  rw [h1, Real.sqrt_one, if_neg (by linarith)] at h
  refine ⟨_, h, rfl, rfl, by simp, fun i => ?_⟩
  fin_cases i <;> simp

/-- C79: `fromAtlas` of a quaternion throws on every message that is not a list of four elements. When it does not throw and the
quaternion is valid, it was read from four finite numbers, it is the quotient of these by their magnitude, and so has magnitude 1. -/
theorem C79_quaternion (q : XQuat) (a : Elem) :
    ((∀ l, a = .list l → l.length ≠ 4) → q.fromAtlas a = (q, true)) ∧
    ((q.fromAtlas a).2 = false → (q.fromAtlas a).1.valid = true → ∃ x y z w : ℝ, a.IsNums [.fin x, .fin y, .fin z, .fin w] ∧
      epsilon < Real.sqrt (w ^ 2 + x ^ 2 + y ^ 2 + z ^ 2) ∧
      ∃ x' y' z' w' : ℝ, (q.fromAtlas a).1 = ⟨.fin w', ⟨![.fin x', .fin y', .fin z'], true⟩, true, 1⟩ ∧ w' ^ 2 + x' ^ 2 + y' ^ 2 + z' ^ 2 = 1 ∧
        x = Real.sqrt (w ^ 2 + x ^ 2 + y ^ 2 + z ^ 2) * x' ∧ y = Real.sqrt (w ^ 2 + x ^ 2 + y ^ 2 + z ^ 2) * y' ∧
        z = Real.sqrt (w ^ 2 + x ^ 2 + y ^ 2 + z ^ 2) * z' ∧ w = Real.sqrt (w ^ 2 + x ^ 2 + y ^ 2 + z ^ 2) * w') := by
  constructor
  · intro h
    unfold XQuat.fromAtlas
    cases hl : a.list? with
    | none => rfl
    | some l => simp only; rw [if_pos (h l (list?_eq.1 hl))]
  · intro ht hv
    have key : ∃ x y z w : ℝ, a.IsNums [.fin x, .fin y, .fin z, .fin w] := by
      unfold XQuat.fromAtlas at ht hv
      cases hl : a.list? with
      | none => rw [hl] at ht; simp at ht
      | some l =>
        obtain rfl := list?_eq.1 hl
        simp only [Elem.list?] at ht hv
        by_cases h4 : l.length ≠ 4
        · rw [if_pos h4] at ht; simp at ht
        rw [if_neg h4] at ht hv
        push Not at h4
        obtain ⟨s1, s2⟩ := arrayLoop_spec l (List.finRange 3) q.vec.elem (List.nodup_finRange 3)
        cases hx : arrayLoop l (List.finRange 3) q.vec.elem with
        | mk d t =>
          rw [hx] at s1 s2
          simp only [hx] at ht hv
          cases t with
          | true => simp at ht
          | false =>
            simp only at ht hv
            by_cases hf : ((List.finRange 3).all fun i => (d i).isFinite) = false
            · rw [if_pos hf] at hv; simp at hv
            rw [if_neg hf] at ht hv
            rw [Bool.not_eq_false, List.all_eq_true] at hf
            have hn : ∀ i ∈ List.finRange 3, (l.getD i.val .none).num? ≠ none := by
              intro i hi hc
              have := s1 ⟨i, hi, hc⟩
              simp at this
            obtain ⟨-, s3⟩ := s2 hn
            cases hw : (l.getD 3 .none).num? with
            | none => simp only [hw] at ht; simp at ht
            | some w =>
              simp only [hw] at ht hv
              by_cases hwf : w.isFinite = false
              · rw [if_pos hwf] at hv; simp at hv
              rw [Bool.not_eq_false] at hwf
              have fin_of : ∀ u : XNum, u.isFinite = true → ∃ r, u = .fin r := by
                intro u hu; cases u <;> simp [XNum.isFinite] at hu; exact ⟨_, rfl⟩
              obtain ⟨rw, rfl⟩ := fin_of w hwf
              obtain ⟨x, hx0⟩ := fin_of _ (hf 0 (List.mem_finRange 0))
              obtain ⟨y, hx1⟩ := fin_of _ (hf 1 (List.mem_finRange 1))
              obtain ⟨z, hx2⟩ := fin_of _ (hf 2 (List.mem_finRange 2))
              refine ⟨x, y, z, rw, isNums_four.2 ⟨h4, ?_, ?_, ?_, hw⟩⟩
              · rw [← hx0]; exact (s3 0).1 (List.mem_finRange 0)
              · rw [← hx1]; exact (s3 1).1 (List.mem_finRange 1)
              · rw [← hx2]; exact (s3 2).1 (List.mem_finRange 2)
    obtain ⟨x, y, z, w, hN⟩ := key
    refine ⟨x, y, z, w, hN, ?_⟩
    have hq := quat_fromAtlas_fin q a x y z w hN
    by_cases hc : Real.sqrt (w ^ 2 + x ^ 2 + y ^ 2 + z ^ 2) ≤ epsilon
    · rw [if_pos hc] at hq; rw [hq] at hv; simp at hv
    rw [if_neg hc] at hq
    push Not at hc
    refine ⟨hc, _, _, _, _, by rw [hq], ?_⟩
    have hp : 0 < Real.sqrt (w ^ 2 + x ^ 2 + y ^ 2 + z ^ 2) := lt_trans epsilon_pos hc
    have hs : Real.sqrt (w ^ 2 + x ^ 2 + y ^ 2 + z ^ 2) ^ 2 = w ^ 2 + x ^ 2 + y ^ 2 + z ^ 2 := Real.sq_sqrt (by positivity)
    generalize Real.sqrt (w ^ 2 + x ^ 2 + y ^ 2 + z ^ 2) = N at *
    refine ⟨?_, by field_simp, by field_simp, by field_simp, by field_simp⟩
    field_simp
    linarith

/-! ### AxisBox -/

theorem sort_ordered {lo hi : Fin n → ℝ} (h : ∀ i, lo i ≤ hi i) :
    XBox.sort ⟨⟨fun i => .fin (lo i), true⟩, ⟨fun i => .fin (hi i), true⟩⟩ = ⟨⟨fun i => .fin (lo i), true⟩, ⟨fun i => .fin (hi i), true⟩⟩ := by
  unfold XBox.sort
  have : ∀ i, XNum.gt (.fin (lo i)) (.fin (hi i)) = false := by
    intro i; simp [XNum.gt, h i]
  simp [this]

theorem boxLoop_fin (l : List Elem) (lo hi : Fin n → ℝ) (h1 : ∀ i : Fin n, (l.getD i.val .none).num? = some (.fin (lo i)))
    (h2 : ∀ i : Fin n, (l.getD (i.val + n) .none).num? = some (.fin (hi i))) : ∀ (is : List (Fin n)) (b : XBox n),
    ∃ b', boxLoop l is b = .done b' ∧ ∀ i, (i ∈ is → b'.low.elem i = .fin (lo i) ∧ b'.high.elem i = .fin (hi i)) ∧
      (i ∉ is → b'.low.elem i = b.low.elem i ∧ b'.high.elem i = b.high.elem i) := by
  intro is
  induction is with
  | nil => intro b; exact ⟨b, rfl, fun i => ⟨by simp, fun _ => ⟨rfl, rfl⟩⟩⟩
  | cons a is ih =>
    intro b
    obtain ⟨b', e, hb⟩ := ih ⟨⟨Function.update b.low.elem a (.fin (lo a)), b.low.valid⟩, ⟨Function.update b.high.elem a (.fin (hi a)), b.high.valid⟩⟩
    refine ⟨b', ?_, ?_⟩
    · rw [boxLoop]
      simp only [h1 a, h2 a, XNum.isFinite, Bool.true_eq_false, if_false]
      exact e
    · intro i
      constructor
      · intro hi'
        by_cases hm : i ∈ is
        · exact (hb i).1 hm
        · rcases List.mem_cons.1 hi' with rfl | h
          · obtain ⟨a1, a2⟩ := (hb i).2 hm
            rw [a1, a2]; simp
          · exact absurd h hm
      · intro hi'
        rw [List.mem_cons, not_or] at hi'
        obtain ⟨a1, a2⟩ := (hb i).2 hi'.2
        rw [a1, a2]; simp [Function.update_of_ne hi'.1]

/-- C78: a valid box comes back, whatever box it is read into. -/
theorem C78_box (hn : 0 < n) (b : Box n) (hl : b.low.valid = true) (hh : b.high.valid = true) (ho : ∀ i, b.low.elem i ≤ b.high.elem i) (b0 : XBox n) :
    b0.fromAtlas b.toAtlas = (XBox.ofBox b, false) := by
  have hb : XBox.ofBox b = ⟨⟨fun i => .fin (b.low.elem i), true⟩, ⟨fun i => .fin (b.high.elem i), true⟩⟩ := by
    unfold XBox.ofBox XPt.ofPt; rw [hl, hh]
  unfold Box.toAtlas
  by_cases h0 : ∀ i, b.low.elem i = 0
  · rw [if_pos h0]
    have h1 := fromAtlas_of_nums b0.high (toAtlas_isNums fun i => XNum.fin (b.high.elem i))
    unfold XBox.fromAtlas
    simp only [arrayToAtlas, Elem.list?, List.length_ofFn, if_true]
    rw [show (Elem.list (List.ofFn fun i => Elem.float (.fin (b.high.elem i)))) = arrayToAtlas fun i => .fin (b.high.elem i) from rfl, h1]
    simp only
    rw [hb]
    have : (fun i => XNum.fin (b.low.elem i)) = fun _ => .fin 0 := by funext i; rw [h0 i]
    rw [this, sort_ordered (lo := fun _ => 0) (fun i => by rw [← h0 i]; exact ho i)]
  · rw [if_neg h0]
    generalize hL : (List.ofFn (fun i => Elem.float (.fin (b.low.elem i))) ++ List.ofFn fun i => Elem.float (.fin (b.high.elem i))) = l
    have hlen : l.length = 2 * n := by rw [← hL]; simp; omega
    have h1 : ∀ i : Fin n, (l.getD i.val .none).num? = some (.fin (b.low.elem i)) := by
      intro i
      rw [getD_num (by omega)]
      subst hL
      rw [List.getElem_append_left (by simp)]
      simp [Elem.num?]
    have h2 : ∀ i : Fin n, (l.getD (i.val + n) .none).num? = some (.fin (b.high.elem i)) := by
      intro i
      rw [getD_num (by omega)]
      subst hL
      rw [List.getElem_append_right (by simp)]
      simp [Elem.num?]
    obtain ⟨b', e, hb'⟩ := boxLoop_fin l b.low.elem b.high.elem h1 h2 (List.finRange n) b0
    unfold XBox.fromAtlas
    simp only [Elem.list?]
    rw [if_neg (by omega), if_pos hlen, e]
    simp only
    have e1 : b'.low.elem = fun i => .fin (b.low.elem i) := by funext i; exact ((hb' i).1 (List.mem_finRange i)).1
    have e2 : b'.high.elem = fun i => .fin (b.high.elem i) := by funext i; exact ((hb' i).1 (List.mem_finRange i)).2
    rw [e1, e2, sort_ordered ho, hb]

theorem sort_fin (lo hi : Fin n → ℝ) :
    XBox.sort ⟨⟨fun i => .fin (lo i), true⟩, ⟨fun i => .fin (hi i), true⟩⟩ =
      ⟨⟨fun i => .fin (min (lo i) (hi i)), true⟩, ⟨fun i => .fin (max (lo i) (hi i)), true⟩⟩ := by
  have h : ∀ i, (if XNum.gt (.fin (lo i)) (.fin (hi i)) = true then XNum.fin (hi i) else XNum.fin (lo i)) = .fin (min (lo i) (hi i)) ∧
      (if XNum.gt (.fin (lo i)) (.fin (hi i)) = true then XNum.fin (lo i) else XNum.fin (hi i)) = .fin (max (lo i) (hi i)) := by
    intro i
    by_cases h : lo i > hi i
    · have e : XNum.gt (.fin (lo i)) (.fin (hi i)) = true := by simp [XNum.gt, h]
      rw [e, min_eq_right h.le, max_eq_left h.le]; simp
    · have e : XNum.gt (.fin (lo i)) (.fin (hi i)) = false := by simpa [XNum.gt] using h
      rw [e, min_eq_left (not_lt.1 h), max_eq_right (not_lt.1 h)]; simp
  unfold XBox.sort
  simp only [(h _).1, (h _).2]

/-- C79: from `2 * dim` finite numbers one gets the valid box that has the first and the second half as opposite corners, in whatever
order they are. -/
theorem C79_box_corners (hn : 0 < n) (b : XBox n) (x y : Fin n → ℝ) (a : Elem)
    (ha : a.IsNums ((List.ofFn fun i => .fin (x i)) ++ List.ofFn fun i => .fin (y i))) :
    b.fromAtlas a = (⟨⟨fun i => .fin (min (x i) (y i)), true⟩, ⟨fun i => .fin (max (x i) (y i)), true⟩⟩, false) := by
  obtain ⟨l, rfl, h⟩ := ha
  have hlen : l.length = 2 * n := by have := congrArg List.length h; simp at this; omega
  have get : ∀ k (hk : k < l.length), some (l[k].num?) = ((List.map some (((List.ofFn fun i => XNum.fin (x i)) ++ List.ofFn fun i => XNum.fin (y i))))[k]?) := by
    intro k hk
    rw [← h]; simp [hk]
  have h1 : ∀ i : Fin n, (l.getD i.val .none).num? = some (.fin (x i)) := by
    intro i
    have hi : i.val < l.length := by omega
    rw [getD_num hi]
    have := get i.val hi
    rw [List.getElem?_map, List.getElem?_append_left (by simp)] at this
    simpa using this
  have h2 : ∀ i : Fin n, (l.getD (i.val + n) .none).num? = some (.fin (y i)) := by
    intro i
    have hi : i.val + n < l.length := by omega
    rw [getD_num hi]
    have := get (i.val + n) hi
    rw [List.getElem?_map, List.getElem?_append_right (by simp)] at this
    simpa using this
  obtain ⟨b', e, hb'⟩ := boxLoop_fin l x y h1 h2 (List.finRange n) b
  unfold XBox.fromAtlas
  simp only [Elem.list?]
  rw [if_neg (by omega), if_pos hlen, e]
  simp only
  have e1 : b'.low.elem = fun i => .fin (x i) := by funext i; exact ((hb' i).1 (List.mem_finRange i)).1
  have e2 : b'.high.elem = fun i => .fin (y i) := by funext i; exact ((hb' i).1 (List.mem_finRange i)).2
  rw [e1, e2, sort_fin]

/-- C79: from `dim` finite numbers one gets the valid box with one corner at the origin and the other at these coordinates. -/
theorem C79_box_origin (hn : 0 < n) (b : XBox n) (y : Fin n → ℝ) (a : Elem) (ha : a.IsNums (List.ofFn fun i => .fin (y i))) :
    b.fromAtlas a = (⟨⟨fun i => .fin (min 0 (y i)), true⟩, ⟨fun i => .fin (max 0 (y i)), true⟩⟩, false) := by
  have h1 := fromAtlas_of_nums b.high ha
  obtain ⟨l, rfl, h⟩ := ha
  have hlen : l.length = n := by have := congrArg List.length h; simpa using this
  unfold XBox.fromAtlas
  simp only [Elem.list?]
  rw [if_pos hlen, h1]
  simp only
  rw [sort_fin (fun _ => 0) y]

/-- C79: a box read from a message without an exception is valid only if all its coordinates are finite, and then they are in order. -/
theorem C79_box (b : XBox n) (a : Elem) (hn : 0 < n) :
    ((∀ l, a = .list l → l.length ≠ n ∧ l.length ≠ 2 * n) → b.fromAtlas a = (b, true)) ∧
    ((b.fromAtlas a).2 = false → (b.fromAtlas a).1.valid = true → ∀ i, ∃ lo hi : ℝ,
      (b.fromAtlas a).1.low.elem i = .fin lo ∧ (b.fromAtlas a).1.high.elem i = .fin hi ∧ lo ≤ hi) := by
  have sorted : ∀ (x y : ℝ) (c : XBox n) (i : Fin n), c.low.elem i = .fin x → c.high.elem i = .fin y → ∃ lo hi : ℝ,
      c.sort.low.elem i = .fin lo ∧ c.sort.high.elem i = .fin hi ∧ lo ≤ hi := by
    intro x y c i hx hy
    simp only [XBox.sort, hx, hy]
    by_cases h : x > y
    · have : XNum.gt (.fin x) (.fin y) = true := by simp [XNum.gt, h]
      rw [this]; exact ⟨y, x, rfl, rfl, h.le⟩
    · have : XNum.gt (.fin x) (.fin y) = false := by simpa [XNum.gt] using h
      rw [this]; exact ⟨x, y, rfl, rfl, not_lt.1 h⟩
  have fin_of : ∀ u : XNum, u.isFinite = true → ∃ r, u = .fin r := by
    intro u hu; cases u <;> simp [XNum.isFinite] at hu; exact ⟨_, rfl⟩
  constructor
  · intro h
    unfold XBox.fromAtlas
    cases hl : a.list? with
    | none => rfl
    | some l =>
      obtain ⟨h1, h2⟩ := h l (list?_eq.1 hl)
      simp only; rw [if_neg h1, if_neg h2]
  · intro ht hv i
    unfold XBox.fromAtlas at ht hv ⊢
    cases hl : a.list? with
    | none => rw [hl] at ht; simp at ht
    | some l =>
      obtain rfl := list?_eq.1 hl
      simp only [Elem.list?] at ht hv ⊢
      by_cases h1 : l.length = n
      · rw [if_pos h1] at ht hv ⊢
        have hp := C79_vector b.high (.list l)
        cases hx : b.high.fromAtlas (.list l) with
        | mk h t =>
          simp only [hx] at ht hv hp ⊢
          cases t with
          | true => simp at ht
          | false =>
            simp only [XBox.valid, XBox.sort, Bool.true_and] at hv
            obtain ⟨y, hy⟩ := fin_of _ ((hp.2 rfl).2.1 hv i)
            exact sorted 0 y _ i rfl hy
      rw [if_neg h1] at ht hv ⊢
      by_cases h2 : l.length = 2 * n
      · rw [if_pos h2] at ht hv ⊢
        have key : ∀ (is : List (Fin n)) (b : XBox n),
            (∀ c, boxLoop l is b = .returned c → c.valid = false) ∧
            (∀ c, boxLoop l is b = .done c → ∀ i, (i ∈ is → (c.low.elem i).isFinite = true ∧ (c.high.elem i).isFinite = true) ∧
              (i ∉ is → c.low.elem i = b.low.elem i ∧ c.high.elem i = b.high.elem i)) := by
          intro is
          induction is with
          | nil =>
            intro b
            refine ⟨fun c h => by simp [boxLoop] at h, fun c h i => ?_⟩
            simp only [boxLoop, BoxLoop.done.injEq] at h
            subst h
            exact ⟨by simp, fun _ => ⟨rfl, rfl⟩⟩
          | cons j is ih =>
            intro b
            rw [boxLoop]
            cases hx : (l.getD j.val .none).num? with
            | none => exact ⟨fun c h => by simp at h, fun c h => by simp at h⟩
            | some x =>
              simp only
              by_cases hxf : x.isFinite = false
              · rw [if_pos hxf]
                refine ⟨fun c h => ?_, fun c h => by simp at h⟩
                simp only [BoxLoop.returned.injEq] at h
                subst h; simp [XBox.valid]
              rw [if_neg hxf]
              rw [Bool.not_eq_false] at hxf
              cases hy : (l.getD (j.val + n) .none).num? with
              | none => exact ⟨fun c h => by simp at h, fun c h => by simp at h⟩
              | some y =>
                simp only
                by_cases hyf : y.isFinite = false
                · rw [if_pos hyf]
                  refine ⟨fun c h => ?_, fun c h => by simp at h⟩
                  simp only [BoxLoop.returned.injEq] at h
                  subst h; simp [XBox.valid]
                rw [if_neg hyf]
                rw [Bool.not_eq_false] at hyf
                obtain ⟨i1, i2⟩ := ih ⟨⟨Function.update b.low.elem j x, b.low.valid⟩, ⟨Function.update b.high.elem j y, b.high.valid⟩⟩
                refine ⟨i1, fun c h i => ?_⟩
                obtain ⟨j1, j2⟩ := i2 c h i
                constructor
                · intro hi
                  by_cases hm : i ∈ is
                  · exact j1 hm
                  · rcases List.mem_cons.1 hi with rfl | hi
                    · obtain ⟨a1, a2⟩ := j2 hm
                      rw [a1, a2]; simp [hxf, hyf]
                    · exact absurd hi hm
                · intro hi
                  rw [List.mem_cons, not_or] at hi
                  obtain ⟨a1, a2⟩ := j2 hi.2
                  rw [a1, a2]; simp [Function.update_of_ne hi.1]
        obtain ⟨k1, k2⟩ := key (List.finRange n) b
        cases hx : boxLoop l (List.finRange n) b with
        | threw c => simp only [hx] at ht; simp at ht
        | returned c => simp only [hx] at hv; rw [k1 c hx] at hv; simp at hv
        | done c =>
          simp only
          obtain ⟨a1, a2⟩ := (k2 c hx i).1 (List.mem_finRange i)
          obtain ⟨x, hx'⟩ := fin_of _ a1
          obtain ⟨y, hy'⟩ := fin_of _ a2
          exact sorted x y _ i hx' hy'
      · rw [if_neg h2] at ht; simp at ht

/-- C79 does not hold of the corners of a box: from the list `[-inf, 1]` one gets an invalid box whose low corner is a valid point with an
infinite coordinate. -/
theorem C79_corner_false (b : XBox 2) : let r := b.fromAtlas (.list [.float .ninf, .float (.fin 1)])
    r.2 = false ∧ r.1.low.valid = true ∧ r.1.low.elem 0 = .ninf := by
  intro r
  have : r = (XBox.sort ⟨⟨fun _ => .fin 0, true⟩, ⟨![.ninf, .fin 1], false⟩⟩, false) := by
    show XBox.fromAtlas _ _ = _
    simp only [XBox.fromAtlas, Elem.list?, List.length_cons, List.length_nil, zero_add, Nat.reduceAdd, if_true]
    have h : b.high.fromAtlas (.list [.float .ninf, .float (.fin 1)]) = (⟨![.ninf, .fin 1], false⟩, false) := by
      simp only [XPt.fromAtlas, arrayFromAtlas, Elem.list?, List.length_cons, List.length_nil, zero_add, Nat.reduceAdd, ne_eq, not_true_eq_false, if_false]
      have e : arrayLoop [Elem.float .ninf, Elem.float (.fin 1)] (List.finRange 2) b.high.elem = (![.ninf, .fin 1], false) := by
        simp only [List.finRange_succ, List.finRange_zero, List.map_nil, List.map_cons, arrayLoop]
        simp only [Fin.val_zero, List.getD_cons_zero, Elem.num?, Fin.succ_zero_eq_one, Fin.val_one, List.getD_cons_succ]
        refine Prod.ext ?_ rfl
        funext i; fin_cases i <;> simp
      rw [e]
      simp [List.finRange_succ, XNum.isFinite]
    rw [h]
  rw [this]
  refine ⟨rfl, rfl, ?_⟩
  simp [XBox.sort, XNum.gt]

/-! ### Ball -/

/-- C78: a valid ball comes back, whatever ball it is read into. -/
theorem C78_ball (b : Ball n) (hv : b.center.valid = true) (b0 : XBall n) :
    b0.fromAtlas (XBall.ofBall b).toAtlas = (XBall.ofBall b, false) := by
  have h := C78_point b.center hv b0.center
  unfold XBall.fromAtlas XBall.toAtlas
  simp only [Elem.map?, Elem.find, List.find?, beq_self_eq_true, Option.map_some, Option.bind_some, Elem.num?, XBall.ofBall, XNum.isFinite,
    Bool.true_eq_false, if_false, XBall.position, show (("radius" : String) == "position") = false by decide]
  have e : (XPt.ofPt b.center).toAtlas.list? = some (List.ofFn fun i => Elem.float (.fin (b.center.elem i))) := rfl
  rw [e]
  simp only [h]

/-- C79 is false for balls: a message that is not a map is silently accepted, and the constructor then makes a valid ball of radius 0 at
the origin. -/
theorem C79_ball_false (a : Elem) (h : a.map? = none) : XBall.construct n a = (⟨⟨fun _ => .fin 0, true⟩, .fin 0⟩, false) := by
  unfold XBall.construct XBall.fromAtlas; rw [h]

/-- C79 is false for balls: after a message with a NaN radius, a second message with only a position makes the ball valid again, with the
NaN radius. -/
theorem C79_ball_radius_false (b : XBall 2) :
    let b1 := (b.fromAtlas (.map [("radius", .float .nan)])).1
    let r := b1.fromAtlas (.map [("position", .list [.int 0, .int 0])])
    b1.valid = false ∧ r.2 = false ∧ r.1.valid = true ∧ r.1.radius = .nan := by
  intro b1 r
  have e1 : b1 = ⟨⟨b.center.elem, false⟩, .nan⟩ := by
    show (XBall.fromAtlas _ _).1 = _
    simp [XBall.fromAtlas, Elem.map?, Elem.find, Elem.num?, XNum.isFinite]
  have e2 : r = (⟨⟨fun _ => .fin 0, true⟩, .nan⟩, false) := by
    show XBall.fromAtlas b1 _ = _
    rw [e1]
    have h : (⟨b.center.elem, false⟩ : XPt 2).fromAtlas (.list [.int 0, .int 0]) = (⟨fun _ => .fin 0, true⟩, false) :=
      fromAtlas_of_nums _ (d := fun _ => 0) ⟨_, rfl, by simp [List.ofFn_succ, Elem.num?]⟩
    simp [XBall.fromAtlas, Elem.map?, Elem.find, XBall.position, Elem.list?, h]
  rw [e2, e1]; exact ⟨rfl, rfl, rfl, rfl⟩

/-- C79, what holds for balls: after a message with a numeric radius and a position, a ball read without an exception is valid only
if radius and centre are finite. -/
theorem C79_ball_partial (b : XBall n) (m : List (String × Elem)) (r : XNum) (e : Elem) (hr : (Elem.find m "radius").bind Elem.num? = some r)
    (hp : Elem.find m "position" = some e) (hl : e.list? ≠ none) (ht : (b.fromAtlas (.map m)).2 = false) :
    (b.fromAtlas (.map m)).1.radius = r ∧ ((b.fromAtlas (.map m)).1.valid = true → r.isFinite = true ∧
      ∀ i, ((b.fromAtlas (.map m)).1.center.elem i).isFinite = true) := by
  obtain ⟨l, hl⟩ := Option.ne_none_iff_exists'.1 hl
  unfold XBall.fromAtlas at ht ⊢
  simp only [Elem.map?, hr] at ht ⊢
  by_cases hf : r.isFinite = false
  · rw [if_pos hf]; exact ⟨rfl, fun h => by simp [XBall.valid] at h⟩
  · rw [if_neg hf] at ht ⊢
    unfold XBall.position at ht ⊢
    simp only [hp, hl] at ht ⊢
    refine ⟨trivial, fun hv => ⟨by simpa using hf, ?_⟩⟩
    exact ((C79_vector b.center e).2 ht).2.1 hv

/-! ### Lines and polygons -/

theorem cornerOf_point (p : Pt n) (hv : p.valid = true) : cornerOf n (XPt.ofPt p).toAtlas = some p := by
  have hg : ∀ i : Fin n, ((List.ofFn fun i => Elem.float (.fin (p.elem i))).getD i.val .none).num? = some (.fin (p.elem i)) := by
    intro i
    rw [getD_num (by simp)]; simp [Elem.num?]
  unfold cornerOf
  simp only [XPt.toAtlas, arrayToAtlas, XPt.ofPt, Elem.list?, List.length_ofFn, lt_irrefl, if_false, hg]
  simp only [Option.isSome_some, Option.getD_some, XNum.isFinite, XNum.val]
  simp
  exact Pt.ext rfl hv.symm

theorem corners_back (least : Nat) (ps : Corners n) (hl : least ≤ ps.length) (hv : ∀ p ∈ ps, p.valid = true) :
    Corners.fromAtlas least [] ps.toAtlas = (ps, false) := by
  have h : (ps.map fun p => (XPt.ofPt p).toAtlas).filterMap (cornerOf n) = ps := by
    clear hl
    induction ps with
    | nil => rfl
    | cons p ps ih =>
      rw [List.map_cons, List.filterMap_cons_some (cornerOf_point p (hv p (by simp))), ih (fun q hq => hv q (by simp [hq]))]
  unfold Corners.fromAtlas Corners.toAtlas
  simp [Elem.map?, Elem.find, Elem.list?, Corners.addFrom, h]
  exact hl

/-- C78, what holds for polygons: one with at least three corners, all valid, comes back when it is read into an empty polygon. -/
theorem C78_polygon_partial (ps : Corners 2) (hl : 3 ≤ ps.length) (hv : ∀ p ∈ ps, p.valid = true) : polygonFromAtlas [] ps.toAtlas = (ps, false) :=
  corners_back 3 ps hl hv

/-- C78, what holds for lines: one with at least one corner, all valid, comes back when it is read into an empty line. -/
theorem C78_line_partial (ps : Corners n) (hl : ps ≠ []) (hv : ∀ p ∈ ps, p.valid = true) : lineFromAtlas [] ps.toAtlas = (ps, false) :=
  corners_back 1 ps (List.length_pos_iff.2 hl) hv

theorem corners_append (least : Nat) (ps qs : Corners n) (hl : least ≤ qs.length) (hv : ∀ p ∈ qs, p.valid = true) :
    Corners.fromAtlas least ps qs.toAtlas = (ps ++ qs, false) := by
  have h0 := corners_back least qs hl hv
  unfold Corners.fromAtlas Corners.toAtlas at h0 ⊢
  simp [Elem.map?, Elem.find, Elem.list?, Corners.addFrom] at h0 ⊢
  rw [h0.1]
  exact ⟨rfl, by omega⟩

/-- C78 is false for lines and polygons that are read into an object that has corners: the new ones are appended to the old. -/
theorem C78_append_false (ps qs : Corners 2) (h0 : ps ≠ []) (hl : 3 ≤ qs.length) (hv : ∀ p ∈ qs, p.valid = true) :
    polygonFromAtlas ps qs.toAtlas = (ps ++ qs, false) ∧ lineFromAtlas ps qs.toAtlas = (ps ++ qs, false) ∧ ps ++ qs ≠ qs :=
  ⟨corners_append 3 ps qs hl hv, corners_append 1 ps qs (by omega) hv, by simpa using h0⟩

/-- C78 is false for polygons with one or two corners and for empty lines: `fromAtlas` rejects what `toAtlas` made. -/
theorem C78_few_false (ps : Corners 2) (hl : ps.length < 3) (hv : ∀ p ∈ ps, p.valid = true) :
    (polygonFromAtlas [] ps.toAtlas).2 = true ∧ (lineFromAtlas ([] : Corners 2) (Corners.toAtlas ([] : Corners 2))).2 = true := by
  constructor
  · have h0 := corners_back 0 ps (by omega) hv
    unfold polygonFromAtlas
    unfold Corners.fromAtlas Corners.toAtlas at h0 ⊢
    simp [Elem.map?, Elem.find, Elem.list?, Corners.addFrom] at h0 ⊢
    rw [h0]; exact hl
  · simp [lineFromAtlas, Corners.fromAtlas, Corners.toAtlas, Elem.map?, Elem.find, Elem.list?, Corners.addFrom]

/-- C79: whatever the message, the corners of a line or polygon after `fromAtlas` are the old ones followed by points read
from lists of finite numbers, each valid; and an exception is thrown when there are too few in the end. -/
theorem C79_corners (least : Nat) (ps : Corners n) (a : Elem) :
    ∃ qs, (Corners.fromAtlas least ps a).1 = ps ++ qs ∧ (∀ q ∈ qs, q.valid = true ∧
      ∃ e l, e = Elem.list l ∧ n ≤ l.length ∧ ∀ i : Fin n, (l.getD i.val .none).num? = some (.fin (q.elem i))) ∧
    ((Corners.fromAtlas least ps a).1.length < least → (Corners.fromAtlas least ps a).2 = true) ∧
    ((∀ l, a ≠ .list l) → (∀ m, a ≠ .map m) → (Corners.fromAtlas least ps a).2 = true) := by
  have one : ∀ (e : Elem) (q : Pt n), cornerOf n e = some q → q.valid = true ∧
      ∃ l, e = Elem.list l ∧ n ≤ l.length ∧ ∀ i : Fin n, (l.getD i.val .none).num? = some (.fin (q.elem i)) := by
    intro e q h
    unfold cornerOf at h
    cases hl : e.list? with
    | none => simp [hl] at h
    | some l =>
      obtain rfl := list?_eq.1 hl
      simp only [Elem.list?] at h
      by_cases h1 : l.length < n
      · rw [if_pos h1] at h; simp at h
      rw [if_neg h1] at h
      by_cases h2 : ((List.finRange n).all fun i => ((l.getD i.val Elem.none).num?).isSome) = false
      · rw [if_pos h2] at h; simp at h
      rw [if_neg h2] at h
      by_cases h3 : ((List.finRange n).all fun i => (((l.getD i.val Elem.none).num?).getD .nan).isFinite) = false
      · rw [if_pos h3] at h; simp at h
      rw [if_neg h3] at h
      rw [Bool.not_eq_false, List.all_eq_true] at h2 h3
      obtain rfl := Option.some.inj h
      refine ⟨rfl, l, rfl, not_lt.1 h1, fun i => ?_⟩
      have a2 := h2 i (List.mem_finRange i)
      have a3 := h3 i (List.mem_finRange i)
      obtain ⟨x, hx⟩ := Option.isSome_iff_exists.1 a2
      rw [hx] at a3
      simp only [hx, Option.getD_some] at a3 ⊢
      cases x <;> simp [XNum.isFinite] at a3
      rfl
  have add : ∀ e : Elem, ∃ qs, ps.addFrom e = ps ++ qs ∧ ∀ q ∈ qs, q.valid = true ∧
      ∃ e l, e = Elem.list l ∧ n ≤ l.length ∧ ∀ i : Fin n, (l.getD i.val .none).num? = some (.fin (q.elem i)) := by
    intro e
    unfold Corners.addFrom
    cases hl : e.list? with
    | none => exact ⟨[], by simp, by simp⟩
    | some l =>
      refine ⟨_, rfl, fun q hq => ?_⟩
      obtain ⟨e', -, he'⟩ := List.mem_filterMap.1 hq
      obtain ⟨h1, l', h2⟩ := one e' q he'
      exact ⟨h1, e', l', h2⟩
  unfold Corners.fromAtlas
  cases a with
  | map m =>
    simp only [Elem.map?]
    cases hf : Elem.find m "points" with
    | none => exact ⟨[], by simp, by simp, fun _ => rfl, fun _ _ => rfl⟩
    | some e =>
      simp only
      cases he : e.list? with
      | none => exact ⟨[], by simp, by simp, fun _ => rfl, fun _ _ => rfl⟩
      | some l =>
        obtain ⟨qs, h1, h2⟩ := add e
        exact ⟨qs, h1, h2, fun h => by simpa using h, fun _ h => absurd rfl (h m)⟩
  | list l =>
    obtain ⟨qs, h1, h2⟩ := add (.list l)
    simp only [Elem.map?, Elem.list?]
    exact ⟨qs, h1, h2, fun h => by simpa using h, fun h => absurd rfl (h l)⟩
  | none => exact ⟨[], by simp [Elem.map?, Elem.list?], by simp, fun _ => rfl, fun _ _ => rfl⟩
  | int i => exact ⟨[], by simp [Elem.map?, Elem.list?], by simp, fun _ => rfl, fun _ _ => rfl⟩
  | float x => exact ⟨[], by simp [Elem.map?, Elem.list?], by simp, fun _ => rfl, fun _ _ => rfl⟩
  | str s => exact ⟨[], by simp [Elem.map?, Elem.list?], by simp, fun _ => rfl, fun _ _ => rfl⟩

/-! ### RotBox -/

theorem rotbox_read (r : RBox n) (h1 : r.corner.valid = true) (h2 : r.size.valid = true) (junk : XPt n) (r0 : XRBox n) :
    r0.fromAtlas junk (XRBox.ofRBox r).toAtlas = (⟨XPt.ofPt r.corner, XPt.ofVec r.size, RotMat.identity⟩, false) := by
  have a := C78_point r.corner h1 junk
  have b := C78_vector r.size h2 junk
  unfold XRBox.fromAtlas XRBox.toAtlas
  simp only [Elem.map?, Elem.find, List.find?, beq_self_eq_true, Option.map_some, XRBox.ofRBox, a, b,
    show (("point" : String) == "size") = false by decide]

/-- C78, what holds for rotated boxes: one that is not rotated comes back. -/
theorem C78_rotbox_partial (r : RBox n) (h1 : r.corner.valid = true) (h2 : r.size.valid = true) (h3 : r.orient = RotMat.identity)
    (junk : XPt n) (r0 : XRBox n) : r0.fromAtlas junk (XRBox.ofRBox r).toAtlas = (XRBox.ofRBox r, false) := by
  rw [rotbox_read r h1 h2]; unfold XRBox.ofRBox; rw [h3]

/-- C78 is false for rotated boxes: the orientation is not sent and comes back as the identity. -/
theorem C78_rotbox_false (r : RBox n) (h1 : r.corner.valid = true) (h2 : r.size.valid = true) (h3 : r.orient.elem ≠ 1)
    (junk : XPt n) (r0 : XRBox n) : ∃ r', r0.fromAtlas junk (XRBox.ofRBox r).toAtlas = (r', false) ∧ r'.valid = true ∧ r'.orient.elem ≠ r.orient.elem := by
  refine ⟨_, rotbox_read r h1 h2 junk r0, by simp [XRBox.valid, XPt.ofPt, XPt.ofVec, h1, h2, RotMat.identity], ?_⟩
  intro h
  apply h3
  rw [← h]
  ext i j; simp [RotMat.identity, Matrix.one_apply]

/-- C79: a rotated box is read only from a map with a `point` and a `size` that are lists of `dim` numbers; on an exception the
object does not change; it is valid only if all numbers are finite. -/
theorem C79_rotbox (junk : XPt n) (r : XRBox n) (a : Elem) :
    ((r.fromAtlas junk a).2 = true → (r.fromAtlas junk a).1 = r) ∧
    ((r.fromAtlas junk a).2 = false → ∃ m e1 e2, a = .map m ∧ Elem.find m "point" = some e1 ∧ Elem.find m "size" = some e2 ∧
      e1.IsNums (List.ofFn (r.fromAtlas junk a).1.corner.elem) ∧ e2.IsNums (List.ofFn (r.fromAtlas junk a).1.size.elem) ∧
      ((r.fromAtlas junk a).1.valid = true ↔ (∀ i, ((r.fromAtlas junk a).1.corner.elem i).isFinite = true) ∧
        ∀ i, ((r.fromAtlas junk a).1.size.elem i).isFinite = true)) := by
  unfold XRBox.fromAtlas
  cases hm : a.map? with
  | none => exact ⟨fun _ => rfl, fun h => by simp at h⟩
  | some m =>
    have ha : a = .map m := by cases a <;> simp [Elem.map?] at hm; rw [hm]
    simp only
    cases h1 : Elem.find m "point" with
    | none => exact ⟨fun _ => rfl, fun h => by simp at h⟩
    | some e1 =>
      simp only
      have c1 := C79_vector junk e1
      cases hx : junk.fromAtlas e1 with
      | mk p t =>
        rw [hx] at c1
        cases t with
        | true => exact ⟨fun _ => rfl, fun h => by simp at h⟩
        | false =>
          simp only
          cases h2 : Elem.find m "size" with
          | none => exact ⟨fun _ => rfl, fun h => by simp at h⟩
          | some e2 =>
            simp only
            have c2 := C79_vector junk e2
            cases hy : junk.fromAtlas e2 with
            | mk v t =>
              rw [hy] at c2
              cases t with
              | true => exact ⟨fun _ => rfl, fun h => by simp at h⟩
              | false =>
                refine ⟨fun h => by simp at h, fun _ => ⟨m, e1, e2, ha, h1, h2, (c1.2 rfl).1, (c2.2 rfl).1, ?_⟩⟩
                rw [← (c1.2 rfl).2, ← (c2.2 rfl).2]
                simp [XRBox.valid, RotMat.identity]

/-- Non-vacuity: a vector with an infinite coordinate, a list of the wrong length, a unit quaternion, a box, a rotated box. -/
example : ((⟨fun _ => .fin 0, true⟩ : XPt 2).fromAtlas (.list [.int 1, .float .pinf])).2 = false ∧
    ((⟨fun _ => .fin 0, true⟩ : XPt 2).fromAtlas (.list [.int 1])).2 = true ∧
    (Quat.identity.w ^ 2 + Quat.identity.vec.elem ⬝ᵥ Quat.identity.vec.elem = 1) ∧
    (∀ i, (⟨![0, 1], true⟩ : Pt 2).elem i ≤ (⟨![1, 1], true⟩ : Pt 2).elem i) ∧
    quarter.elem ≠ 1 := by
  refine ⟨?_, ?_, by simp [Quat.identity, Vec.zero], fun i => by fin_cases i <;> simp, ?_⟩
  · simp [XPt.fromAtlas, arrayFromAtlas, Elem.list?, List.finRange_succ, arrayLoop, Elem.num?]
  · simp [XPt.fromAtlas, arrayFromAtlas, Elem.list?]
  · intro h
    have := congrFun (congrFun h 0) 0
    simp [quarter] at this

end WFMath
