/- Property theorems C148: axis-aligned boxes of doubles, with corners that may be infinite. -/
import Verif.Spec.IeeeExt
import Verif.Model.IeeeBox
import Verif.Lemmas.IeeeSub
import Mathlib.Data.EReal.Operations

namespace WFMath
open Spec
variable {n : Nat}

namespace Ie

theorem lt_ext {a b : Dbl} (ha : a.Fine) (hb : b.Fine) : Dbl.lt a b = true ↔ a.ext < b.ext := by
  rcases a with x | (_ | _) | _ <;> rcases b with y | (_ | _) | _ <;> simp_all [Dbl.lt, Dbl.ext, Dbl.Fine, EReal.coe_lt_coe_iff, EReal.coe_lt_top, EReal.bot_lt_coe]

theorem le_ext {a b : Dbl} (ha : a.Fine) (hb : b.Fine) : Dbl.le a b = true ↔ a.ext ≤ b.ext := by
  rcases a with x | (_ | _) | _ <;> rcases b with y | (_ | _) | _ <;> simp_all [Dbl.le, Dbl.ext, Dbl.Fine, EReal.coe_le_coe_iff]

theorem ext_inj {a b : Dbl} (ha : a.Fine) (hb : b.Fine) (h : a.ext = b.ext) : a = b := by
  rcases a with x | (_ | _) | _ <;> rcases b with y | (_ | _) | _ <;> simp_all [Dbl.ext, Dbl.Fine]

theorem gt_tol {g : Nearest} {a b : Dbl} (ha : a.Fine) (hb : b.Fine) :
    (a.ext ≤ b.ext + (epsilon : ℝ) → Dbl.lt (.num epsilon) (Dbl.sub g a b) = false) ∧
    (Dbl.lt (.num epsilon) (Dbl.sub g a b) = false → a.ext ≤ b.ext + (epsilon * (1 + 2 ^ (-52 : ℤ)) : ℝ)) := by
  have he2 := epsilon_lt
  norm_num at he2
  have he1 : epsilon < 2 ^ (1024 : ℤ) := lt_of_lt_of_le (by linarith) (one_le_zpow₀ one_le_two (by norm_num : (0 : ℤ) ≤ 1024))
  rcases a with x | (_ | _) | _ <;> rcases b with y | (_ | _) | _
  · simp only [Dbl.ext, ← EReal.coe_add, EReal.coe_le_coe_iff]
    exact ⟨fun h => gt_false eps_dbl he1 (by linarith), fun h => by have := of_gt_false ha.1 hb.1 epsilon_pos.le h; linarith⟩
  all_goals first | exact ha.elim | exact hb.elim | skip
  all_goals
    have hc : ∀ y z : ℝ, ¬ (y : EReal) + (z : EReal) = ⊤ := fun y z => by rw [← EReal.coe_add]; exact EReal.coe_ne_top _
    generalize epsilon * (1 + 2 ^ (-52 : ℤ)) = E
    simp [Dbl.ext, Dbl.sub, Dbl.add, Dbl.neg, Dbl.lt, hc]

theorem floatMin_ext {a b : Dbl} (ha : a.Fine) (hb : b.Fine) : (floatMin a b).Fine ∧ (floatMin a b).ext = min a.ext b.ext := by
  unfold floatMin
  split_ifs with h
  · exact ⟨ha, (min_eq_left ((lt_ext ha hb).1 h).le).symm⟩
  · exact ⟨hb, (min_eq_right (not_lt.1 fun h' => h ((lt_ext ha hb).2 h'))).symm⟩

theorem floatMax_ext {a b : Dbl} (ha : a.Fine) (hb : b.Fine) : (floatMax a b).Fine ∧ (floatMax a b).ext = max a.ext b.ext := by
  unfold floatMax
  split_ifs with h
  · exact ⟨ha, (max_eq_left ((lt_ext hb ha).1 h).le).symm⟩
  · exact ⟨hb, (max_eq_right (not_lt.1 fun h' => h ((lt_ext hb ha).2 h'))).symm⟩

theorem not_lt_ext {a b : Dbl} (ha : a.Fine) (hb : b.Fine) : Dbl.lt a b = false ↔ b.ext ≤ a.ext := by
  rw [← not_lt, ← lt_ext ha hb, Bool.not_eq_true]

theorem not_le_ext {a b : Dbl} (ha : a.Fine) (hb : b.Fine) : Dbl.le a b = false ↔ b.ext < a.ext := by
  rw [← not_le, ← le_ext ha hb, Bool.not_eq_true]

end Ie

/-- No coordinate of the corners is NaN. -/
def FineBox (b : Ie.DBox n) : Prop := (∀ i, (b.low.elem i).Fine) ∧ ∀ i, (b.high.elem i).Fine

/-- C148, points in boxes: no coordinate is NaN, some may be infinite. The proper test is exact. The tolerant one accepts what is within epsilon of the box and nothing further
away than `epsilon (1 + 2^-52)`. -/
theorem C148_point (g : Nearest) (lo hi p : Fin n → Dbl) (hl : ∀ i, (lo i).Fine) (hh : ∀ i, (hi i).Fine) (hp : ∀ i, (p i).Fine) :
    (Ie.interBP g lo hi p true = true ↔ ∀ i, (lo i).ext < (p i).ext ∧ (p i).ext < (hi i).ext) ∧
    ((∀ i, (lo i).ext ≤ (p i).ext + (epsilon : ℝ) ∧ (p i).ext ≤ (hi i).ext + (epsilon : ℝ)) → Ie.interBP g lo hi p false = true) ∧
    (Ie.interBP g lo hi p false = true →
      ∀ i, (lo i).ext ≤ (p i).ext + (epsilon * (1 + 2 ^ (-52 : ℤ)) : ℝ) ∧ (p i).ext ≤ (hi i).ext + (epsilon * (1 + 2 ^ (-52 : ℤ)) : ℝ)) := by
  simp only [Ie.interBP, Ie.greater, Ie.less, List.all_eq_true, List.mem_finRange, true_implies, Bool.false_eq_true, if_false, if_true, Bool.not_eq_true',
      Bool.or_eq_false_iff]
  refine ⟨forall_congr' fun i => ?_, fun h i => ?_, fun h i => ?_⟩
  · rw [Ie.not_le_ext (hp i) (hl i), Ie.not_le_ext (hh i) (hp i)]
  · exact ⟨(Ie.gt_tol (hl i) (hp i)).1 (h i).1, (Ie.gt_tol (hp i) (hh i)).1 (h i).2⟩
  · exact ⟨(Ie.gt_tol (hl i) (hp i)).2 (h i).1, (Ie.gt_tol (hp i) (hh i)).2 (h i).2⟩

/-- C148, overlap of two boxes. In particular boxes that share a point are always reported by the tolerant test. -/
theorem C148_overlap (g : Nearest) (a b : Ie.DBox n) (ha : FineBox a) (hb : FineBox b) :
    (Ie.interBB g a b true = true ↔ ∀ i, (a.low.elem i).ext < (b.high.elem i).ext ∧ (b.low.elem i).ext < (a.high.elem i).ext) ∧
    ((∀ i, (a.low.elem i).ext ≤ (b.high.elem i).ext + (epsilon : ℝ) ∧ (b.low.elem i).ext ≤ (a.high.elem i).ext + (epsilon : ℝ)) → Ie.interBB g a b false = true) ∧
    (Ie.interBB g a b false = true → ∀ i, (a.low.elem i).ext ≤ (b.high.elem i).ext + (epsilon * (1 + 2 ^ (-52 : ℤ)) : ℝ) ∧
      (b.low.elem i).ext ≤ (a.high.elem i).ext + (epsilon * (1 + 2 ^ (-52 : ℤ)) : ℝ)) ∧
    ((Reach a.low.elem a.high.elem ∩ Reach b.low.elem b.high.elem).Nonempty → Ie.interBB g a b false = true) := by
  have key : (∀ i, (a.low.elem i).ext ≤ (b.high.elem i).ext + (epsilon : ℝ) ∧ (b.low.elem i).ext ≤ (a.high.elem i).ext + (epsilon : ℝ)) → Ie.interBB g a b false = true := by
    intro h
    simp only [Ie.interBB, Ie.greater, Ie.less, List.all_eq_true, List.mem_finRange, true_implies, Bool.false_eq_true, if_false, Bool.not_eq_true', Bool.or_eq_false_iff]
    exact fun i => ⟨(Ie.gt_tol (ha.1 i) (hb.2 i)).1 (h i).1, (Ie.gt_tol (hb.1 i) (ha.2 i)).1 (h i).2⟩
  refine ⟨?_, key, fun h i => ?_, fun ⟨x, h1, h2⟩ => key fun i => ?_⟩
  · simp only [Ie.interBB, Ie.greater, Ie.less, List.all_eq_true, List.mem_finRange, true_implies, if_true, Bool.not_eq_true', Bool.or_eq_false_iff]
    refine forall_congr' fun i => ?_
    rw [Ie.not_le_ext (hb.2 i) (ha.1 i), Ie.not_le_ext (ha.2 i) (hb.1 i)]
  · simp only [Ie.interBB, Ie.greater, Ie.less, List.all_eq_true, List.mem_finRange, true_implies, Bool.false_eq_true, if_false, Bool.not_eq_true', Bool.or_eq_false_iff] at h
    exact ⟨(Ie.gt_tol (ha.1 i) (hb.2 i)).2 (h i).1, (Ie.gt_tol (hb.1 i) (ha.2 i)).2 (h i).2⟩
  · have e : (0 : EReal) ≤ (epsilon : ℝ) := EReal.coe_nonneg.2 epsilon_pos.le
    exact ⟨((h1 i).1.trans (h2 i).2).trans (le_add_of_nonneg_right e), ((h2 i).1.trans (h1 i).2).trans (le_add_of_nonneg_right e)⟩

/-- C148, a box inside a box. In particular every point of a box accepted by the proper test is in the outer box, and the whole space contains every box. -/
theorem C148_inside (g : Nearest) (a b : Ie.DBox n) (ha : FineBox a) (hb : FineBox b) :
    (Ie.containsBB g a b true = true ↔ ∀ i, (a.low.elem i).ext < (b.low.elem i).ext ∧ (b.high.elem i).ext < (a.high.elem i).ext) ∧
    ((∀ i, (a.low.elem i).ext ≤ (b.low.elem i).ext + (epsilon : ℝ) ∧ (b.high.elem i).ext ≤ (a.high.elem i).ext + (epsilon : ℝ)) → Ie.containsBB g a b false = true) ∧
    (Ie.containsBB g a b false = true → ∀ i, (a.low.elem i).ext ≤ (b.low.elem i).ext + (epsilon * (1 + 2 ^ (-52 : ℤ)) : ℝ) ∧
      (b.high.elem i).ext ≤ (a.high.elem i).ext + (epsilon * (1 + 2 ^ (-52 : ℤ)) : ℝ)) ∧
    (Ie.containsBB g a b true = true → Reach b.low.elem b.high.elem ⊆ Reach a.low.elem a.high.elem) ∧
    ((∀ i, a.low.elem i = .inf true ∧ a.high.elem i = .inf false) → Ie.containsBB g a b false = true) := by
  have key : (∀ i, (a.low.elem i).ext ≤ (b.low.elem i).ext + (epsilon : ℝ) ∧ (b.high.elem i).ext ≤ (a.high.elem i).ext + (epsilon : ℝ)) → Ie.containsBB g a b false = true := by
    intro h
    simp only [Ie.containsBB, Ie.greater, Ie.less, List.all_eq_true, List.mem_finRange, true_implies, Bool.false_eq_true, if_false, Bool.not_eq_true', Bool.or_eq_false_iff]
    exact fun i => ⟨(Ie.gt_tol (ha.1 i) (hb.1 i)).1 (h i).1, (Ie.gt_tol (hb.2 i) (ha.2 i)).1 (h i).2⟩
  have prop : Ie.containsBB g a b true = true ↔ ∀ i, (a.low.elem i).ext < (b.low.elem i).ext ∧ (b.high.elem i).ext < (a.high.elem i).ext := by
    simp only [Ie.containsBB, Ie.greater, Ie.less, List.all_eq_true, List.mem_finRange, true_implies, if_true, Bool.not_eq_true', Bool.or_eq_false_iff]
    refine forall_congr' fun i => ?_
    rw [Ie.not_le_ext (hb.1 i) (ha.1 i), Ie.not_le_ext (ha.2 i) (hb.2 i)]
  refine ⟨prop, key, fun h i => ?_, fun h x hx i => ?_, fun h => key fun i => ?_⟩
  · simp only [Ie.containsBB, Ie.greater, Ie.less, List.all_eq_true, List.mem_finRange, true_implies, Bool.false_eq_true, if_false, Bool.not_eq_true', Bool.or_eq_false_iff] at h
    exact ⟨(Ie.gt_tol (ha.1 i) (hb.1 i)).2 (h i).1, (Ie.gt_tol (hb.2 i) (ha.2 i)).2 (h i).2⟩
  · have := prop.1 h i
    exact ⟨this.1.le.trans (hx i).1, (hx i).2.trans this.2.le⟩
  · rw [(h i).1, (h i).2]
    exact ⟨bot_le, by rw [show (Dbl.inf false).ext = ⊤ from rfl, EReal.top_add_coe]; exact le_top⟩

/-- C148, the union of two boxes: no NaN comes in, the corners are the smaller and the larger coordinates, so that it holds both boxes and every box that holds both holds it,
and the order of the boxes does not matter. -/
theorem C148_union (a b : Ie.DBox n) (ha : FineBox a) (hb : FineBox b) :
    FineBox (Ie.boxUnion a b) ∧ (∀ i, ((Ie.boxUnion a b).low.elem i).ext = min (a.low.elem i).ext (b.low.elem i).ext) ∧
    (∀ i, ((Ie.boxUnion a b).high.elem i).ext = max (a.high.elem i).ext (b.high.elem i).ext) ∧
    Reach a.low.elem a.high.elem ∪ Reach b.low.elem b.high.elem ⊆ Reach (Ie.boxUnion a b).low.elem (Ie.boxUnion a b).high.elem ∧
    Ie.boxUnion a b = Ie.boxUnion b a ∧
    (Ie.boxUnion a b).low.valid = (a.low.valid && b.low.valid) ∧ (Ie.boxUnion a b).high.valid = (a.high.valid && b.high.valid) := by
  have l := fun i => Ie.floatMin_ext (ha.1 i) (hb.1 i)
  have h := fun i => Ie.floatMax_ext (ha.2 i) (hb.2 i)
  refine ⟨⟨fun i => (l i).1, fun i => (h i).1⟩, fun i => (l i).2, fun i => (h i).2, ?_, ?_, rfl, rfl⟩
  · rintro x (hx | hx) i
    · refine ⟨(l i).2.trans_le ((min_le_left _ _).trans (hx i).1), ((hx i).2.trans (le_max_left _ _)).trans_eq (h i).2.symm⟩
    · refine ⟨(l i).2.trans_le ((min_le_right _ _).trans (hx i).1), ((hx i).2.trans (le_max_right _ _)).trans_eq (h i).2.symm⟩
  · unfold Ie.boxUnion
    congr 2
    · funext i
      have k := Ie.floatMin_ext (hb.1 i) (ha.1 i)
      exact Ie.ext_inj (l i).1 k.1 (by rw [(l i).2, k.2, min_comm])
    · exact Bool.and_comm _ _
    · funext i
      have k := Ie.floatMax_ext (hb.2 i) (ha.2 i)
      exact Ie.ext_inj (h i).1 k.1 (by rw [(h i).2, k.2, max_comm])
    · exact Bool.and_comm _ _

/-- C148, the common part of two boxes: it is reported missing exactly when some range of coordinates is empty, and otherwise its points are the common points. -/
theorem C148_intersection (a b : Ie.DBox n) (ha : FineBox a) (hb : FineBox b) :
    ((Ie.boxIntersection a b).isSome ↔ ∀ i, max (a.low.elem i).ext (b.low.elem i).ext ≤ min (a.high.elem i).ext (b.high.elem i).ext) ∧
    ((Reach a.low.elem a.high.elem ∩ Reach b.low.elem b.high.elem).Nonempty → (Ie.boxIntersection a b).isSome) ∧
    ∀ c, Ie.boxIntersection a b = some c → FineBox c ∧ Reach c.low.elem c.high.elem = Reach a.low.elem a.high.elem ∩ Reach b.low.elem b.high.elem ∧
      c.low.valid = (a.low.valid && b.low.valid) ∧ c.high.valid = (a.high.valid && b.high.valid) := by
  have l := fun i => Ie.floatMax_ext (ha.1 i) (hb.1 i)
  have h := fun i => Ie.floatMin_ext (ha.2 i) (hb.2 i)
  have key : ((Ie.boxIntersection a b).isSome ↔ ∀ i, max (a.low.elem i).ext (b.low.elem i).ext ≤ min (a.high.elem i).ext (b.high.elem i).ext) := by
    unfold Ie.boxIntersection
    simp only [List.any_eq_true, List.mem_finRange, true_and]
    split_ifs with hc
    · obtain ⟨i, hi⟩ := hc
      rw [Ie.lt_ext (h i).1 (l i).1, (l i).2, (h i).2] at hi
      simp only [Option.isSome_none, Bool.false_eq_true, false_iff, not_forall, not_le]
      exact ⟨i, hi⟩
    · simp only [Option.isSome_some, true_iff]
      intro i
      rw [← (l i).2, ← (h i).2, ← not_lt, ← Ie.lt_ext (h i).1 (l i).1]
      exact fun hi => hc ⟨i, hi⟩
  refine ⟨key, fun ⟨x, h1, h2⟩ => key.2 fun i => max_le (le_min ((h1 i).1.trans (h1 i).2) ((h1 i).1.trans (h2 i).2)) (le_min ((h2 i).1.trans (h1 i).2) ((h2 i).1.trans (h2 i).2)),
    fun c hc => ?_⟩
  unfold Ie.boxIntersection at hc
  simp only at hc
  split_ifs at hc with hx
  rw [Option.some.injEq] at hc
  subst hc
  refine ⟨⟨fun i => (l i).1, fun i => (h i).1⟩, ?_, rfl, rfl⟩
  ext x
  simp only [Reach, Set.mem_setOf_eq, Set.mem_inter_iff, (l _).2, (h _).2, max_le_iff, le_min_iff]
  exact ⟨fun k => ⟨fun i => ⟨(k i).1.1, (k i).2.1⟩, fun i => ⟨(k i).1.2, (k i).2.2⟩⟩, fun k i => ⟨⟨(k.1 i).1, (k.2 i).1⟩, (k.1 i).2, (k.2 i).2⟩⟩

/-- C148, bounding boxes of lists of boxes and of points: the lower corner has the smallest and the upper corner the largest coordinates. -/
theorem C148_bounding (b : Ie.DBox n) (bs : List (Ie.DBox n)) (hb : ∀ c ∈ b :: bs, FineBox c) (p : Ie.DVec n) (ps : List (Ie.DVec n)) (hp : ∀ q ∈ p :: ps, ∀ i, (q.elem i).Fine) :
    (FineBox (Ie.boundingBoxes b bs) ∧ (∀ i t, t ≤ ((Ie.boundingBoxes b bs).low.elem i).ext ↔ ∀ c ∈ b :: bs, t ≤ (c.low.elem i).ext) ∧
      (∀ i t, ((Ie.boundingBoxes b bs).high.elem i).ext ≤ t ↔ ∀ c ∈ b :: bs, (c.high.elem i).ext ≤ t) ∧
      ∀ c ∈ b :: bs, Reach c.low.elem c.high.elem ⊆ Reach (Ie.boundingBoxes b bs).low.elem (Ie.boundingBoxes b bs).high.elem) ∧
    (FineBox (Ie.boundingPoints p ps) ∧ (∀ i t, t ≤ ((Ie.boundingPoints p ps).low.elem i).ext ↔ ∀ q ∈ p :: ps, t ≤ (q.elem i).ext) ∧
      (∀ i t, ((Ie.boundingPoints p ps).high.elem i).ext ≤ t ↔ ∀ q ∈ p :: ps, (q.elem i).ext ≤ t)) := by
  have boxes : ∀ (bs : List (Ie.DBox n)) (b : Ie.DBox n), (∀ c ∈ b :: bs, FineBox c) → FineBox (bs.foldl Ie.boxUnion b) ∧
      (∀ i t, t ≤ ((bs.foldl Ie.boxUnion b).low.elem i).ext ↔ ∀ c ∈ b :: bs, t ≤ (c.low.elem i).ext) ∧
      (∀ i t, ((bs.foldl Ie.boxUnion b).high.elem i).ext ≤ t ↔ ∀ c ∈ b :: bs, (c.high.elem i).ext ≤ t) := by
    intro bs
    induction bs with
    | nil => intro b hb; exact ⟨hb b (by simp), by simp, by simp⟩
    | cons d bs ih =>
      intro b hb
      obtain ⟨u1, u2, u3, -⟩ := C148_union b d (hb b (by simp)) (hb d (by simp))
      obtain ⟨k1, k2, k3⟩ := ih (Ie.boxUnion b d) fun c hc => by
        rcases List.mem_cons.1 hc with rfl | hc
        · exact u1
        · exact hb c (by simp [hc])
      refine ⟨k1, fun i t => ?_, fun i t => ?_⟩
      · rw [List.foldl_cons, k2]
        simp only [List.mem_cons, forall_eq_or_imp, u2, le_min_iff, and_assoc]
      · rw [List.foldl_cons, k3]
        simp only [List.mem_cons, forall_eq_or_imp, u3, max_le_iff, and_assoc]
  have points : ∀ (ps : List (Ie.DVec n)) (b : Ie.DBox n), FineBox b → (∀ q ∈ ps, ∀ i, (q.elem i).Fine) →
      ps.foldl (fun b q => (⟨⟨fun i => Ie.floatMin (b.low.elem i) (q.elem i), b.low.valid && q.valid⟩, ⟨fun i => Ie.floatMax (b.high.elem i) (q.elem i), b.high.valid && q.valid⟩⟩ : Ie.DBox n)) b =
        (ps.map fun q => (⟨q, q⟩ : Ie.DBox n)).foldl Ie.boxUnion b := by
    intro ps
    induction ps with
    | nil => intro b _ _; rfl
    | cons q ps ih =>
      intro b hb hq
      rw [List.foldl_cons, List.map_cons, List.foldl_cons]
      exact ih _ (C148_union b ⟨q, q⟩ hb ⟨hq q (by simp), hq q (by simp)⟩).1 fun x hx => hq x (by simp [hx])
  obtain ⟨k1, k2, k3⟩ := boxes bs b hb
  refine ⟨⟨k1, k2, k3, fun c hc x hx i => ⟨?_, ?_⟩⟩, ?_⟩
  · exact ((k2 i _).1 le_rfl c hc).trans (hx i).1
  · exact (hx i).2.trans ((k3 i _).1 le_rfl c hc)
  · have e : Ie.boundingPoints p ps = (ps.map fun q => (⟨q, q⟩ : Ie.DBox n)).foldl Ie.boxUnion ⟨p, p⟩ :=
      points ps ⟨p, p⟩ ⟨hp p (by simp), hp p (by simp)⟩ fun q hq => hp q (by simp [hq])
    obtain ⟨k1, k2, k3⟩ := boxes (ps.map fun q => ⟨q, q⟩) ⟨p, p⟩ fun c hc => by
      rcases List.mem_cons.1 hc with rfl | hc
      · exact ⟨hp p (by simp), hp p (by simp)⟩
      · obtain ⟨q, hq, rfl⟩ := List.mem_map.1 hc
        exact ⟨hp q (by simp [hq]), hp q (by simp [hq])⟩
    rw [e]
    refine ⟨k1, fun i t => ?_, fun i t => ?_⟩
    · rw [k2]; simp
    · rw [k3]; simp

/-- C148, the box of two opposite corners: each coordinate is sorted. -/
theorem C148_corners (p q : Ie.DVec n) (hp : ∀ i, (p.elem i).Fine) (hq : ∀ i, (q.elem i).Fine) (i : Fin n) :
    ((Ie.setCorners p q false).low.elem i).ext = min (p.elem i).ext (q.elem i).ext ∧ ((Ie.setCorners p q false).high.elem i).ext = max (p.elem i).ext (q.elem i).ext ∧
    Ie.setCorners p q true = ⟨p, q⟩ := by
  refine ⟨?_, ?_, rfl⟩
  · show (if Dbl.lt (q.elem i) (p.elem i) then q.elem i else p.elem i).ext = _
    split_ifs with h
    · exact (min_eq_right ((Ie.lt_ext (hq i) (hp i)).1 h).le).symm
    · exact (min_eq_left (not_lt.1 fun h' => h ((Ie.lt_ext (hq i) (hp i)).2 h'))).symm
  · show (if Dbl.lt (q.elem i) (p.elem i) then p.elem i else q.elem i).ext = _
    split_ifs with h
    · exact (max_eq_left ((Ie.lt_ext (hq i) (hp i)).1 h).le).symm
    · exact (max_eq_right (not_lt.1 fun h' => h ((Ie.lt_ext (hq i) (hp i)).2 h'))).symm

/-- What NaN does: the union of a box with a NaN corner and another box loses the NaN or keeps it, depending on the order of the two, and a box with NaN corners is
reported to meet every box, and to be in every box, by the tolerant tests and by the proper ones. -/
theorem C148_nan (g : Nearest) (a b : Ie.DBox n) (ha : ∀ i, a.low.elem i = .nan ∧ a.high.elem i = .nan) (hb : FineBox b) (proper : Bool) :
    (Ie.boxUnion a b).low.elem = b.low.elem ∧ (Ie.boxUnion a b).high.elem = b.high.elem ∧ (Ie.boxUnion b a).low.elem = a.low.elem ∧ (Ie.boxUnion b a).high.elem = a.high.elem ∧
    Ie.interBB g a b proper = true ∧ Ie.containsBB g b a proper = true := by
  have h1 : ∀ x, Dbl.lt .nan x = false := fun x => by cases x <;> rfl
  have h2 : ∀ x, Dbl.lt x .nan = false := fun x => by cases x <;> rfl
  have h3 : ∀ x, Dbl.le .nan x = false := fun x => by cases x <;> rfl
  have h4 : ∀ x, Dbl.le x .nan = false := fun x => by cases x <;> rfl
  have h5 : ∀ x, Dbl.sub g .nan x = .nan := fun x => by cases x <;> rfl
  have h6 : ∀ x, Dbl.sub g x .nan = .nan := fun x => by cases x <;> rfl
  refine ⟨?_, ?_, ?_, ?_, ?_, ?_⟩
  · funext i; simp [Ie.boxUnion, Ie.floatMin, (ha i).1, h1]
  · funext i; simp [Ie.boxUnion, Ie.floatMax, (ha i).2, h2]
  · funext i; simp [Ie.boxUnion, Ie.floatMin, (ha i).1, h2]
  · funext i; simp [Ie.boxUnion, Ie.floatMax, (ha i).2, h1]
  · simp [Ie.interBB, Ie.greater, Ie.less, (ha _).1, (ha _).2, h1, h2, h3, h4, h5, h6]
  · simp [Ie.containsBB, Ie.greater, Ie.less, (ha _).1, (ha _).2, h1, h2, h3, h4, h5, h6]

end WFMath
