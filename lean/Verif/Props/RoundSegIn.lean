/- Property theorems C134, continued: segments in shapes and shapes in segments, computed in doubles. -/
import Verif.Props.RoundSegPoint
import Verif.Props.RoundBall
import Verif.Props.RoundCompare
import Verif.Props.SegmentPairs

namespace WFMath
open Spec Matrix Rounding
variable {n : Nat}

/-- C134, box containing a segment: the proper answer is exact; the tolerant one is up to a unit in the last place of epsilon. -/
theorem C134_in_box (r : Rounding 53) (b : Box n) (s : Seg n) (ho : Ordered b) :
    (Fl.containsBS r b s true = true ↔ segSet s ⊆ boxInterior b) ∧
    (segSet s ⊆ near epsilon (boxSet b) → Fl.containsBS r b s false = true) ∧
    (Fl.containsBS r b s false = true → segSet s ⊆ near (epsilon * (1 + 2 ^ (-52 : ℤ))) (boxSet b)) := by
  have he := epsilon_pos
  have hd : 0 ≤ epsilon * (1 + 2 ^ (-52 : ℤ)) := by positivity
  have c1 := C114_box r b b ho ho s.p1
  have c2 := C114_box r b b ho ho s.p2
  unfold Fl.containsBS
  simp only [Bool.and_eq_true]
  refine ⟨⟨fun h => ?_, fun h => ?_⟩, fun h => ⟨c1.1 (h (p1_mem s)), c2.1 (h (p2_mem s))⟩, fun h => ?_⟩
  · rw [(C114_box_proper r b b s.p1).1, (C114_box_proper r b b s.p2).1, ← (C54_point b s.p1).1, ← (C54_point b s.p2).1] at h
    refine (C63_box b s ho).2.1.1 ?_
    unfold containsBS
    rw [h.1, h.2]; rfl
  · rw [(C114_box_proper r b b s.p1).1, (C114_box_proper r b b s.p2).1]
    exact ⟨h (p1_mem s), h (p2_mem s)⟩
  · have h1 := (mem_near_box ho hd).1 (c1.2.1 h.1)
    have h2 := (mem_near_box ho hd).1 (c2.2.1 h.2)
    rintro x ⟨t, t0, t1, rfl⟩
    rw [mem_near_box ho hd]
    intro i
    have a1 := h1 i
    have a2 := h2 i
    simp only [Pi.add_apply, Pi.smul_apply, smul_eq_mul]
    generalize epsilon * (1 + 2 ^ (-52 : ℤ)) = δ at *
    constructor <;> nlinarith

/-- C134, ball containing a segment. -/
theorem C134_in_ball (r : Rounding 53) (b : Ball n) (s : Seg n) (hn : n ≤ 50) (hr : 0 ≤ b.radius) :
    (segSet s ⊆ ballSet b → Fl.containsBallS r b s false = true) ∧ (segSet s ⊆ ballInterior b → Fl.containsBallS r b s true = true) ∧
    (∀ proper, Fl.containsBallS r b s proper = true → segSet s ⊆ ballSet ⟨b.center, b.radius * (1 + epsilon)⟩ ∨
      NearlyFlushed b.center s.p1 ∨ NearlyFlushed b.center s.p2) := by
  have c1 := C119_point r b s.p1 hn hr
  have c2 := C119_point r b s.p2 hn hr
  unfold Fl.containsBallS
  simp only [Bool.and_eq_true]
  refine ⟨fun h => ⟨c1.1 (h (p1_mem s)), c2.1 (h (p2_mem s))⟩, fun h => ⟨c1.2.1 (h (p1_mem s)), c2.2.1 (h (p2_mem s))⟩, fun proper h => ?_⟩
  rcases c1.2.2 proper h.1 with h1 | h1
  · rcases c2.2.2 proper h.2 with h2 | h2
    · left
      rintro x ⟨t, t0, t1, rfl⟩
      have h1' : eucl s.p1.elem b.center.elem ≤ b.radius * (1 + epsilon) := h1
      have h2' : eucl s.p2.elem b.center.elem ≤ b.radius * (1 + epsilon) := h2
      show eucl _ b.center.elem ≤ b.radius * (1 + epsilon)
      refine (eucl_convex t0 t1).trans ?_
      nlinarith
    · exact .inr (.inr h2)
  · exact .inr (.inl h1)

theorem Fl.containsSB_iff (r : Rounding 53) (s : Seg n) (b : Box n) (pr : Bool) : Fl.containsSB r s b pr = true ↔
    (∀ i j, b.low.elem i ≠ b.high.elem i → b.low.elem j ≠ b.high.elem j → i = j) ∧
    Fl.interSP r s b.low pr = true ∧ (b.low.elem ≠ b.high.elem → Fl.interSP r s b.high pr = true) := by
  obtain ⟨h1, h2⟩ := diffLoop_spec b (List.finRange n) (List.nodup_finRange n) false
  unfold Fl.containsSB
  cases hd : diffLoop b (List.finRange n) false with
  | none =>
    simp only [Bool.false_eq_true, false_iff]
    rintro ⟨h, -⟩
    rcases h1.1 hd with ⟨h', -⟩ | ⟨i, -, j, -, hij, a1, a2⟩
    · exact absurd h' (by simp)
    · exact hij (h i j a1 a2)
  | some g =>
    have hg := h2 g hd
    have hg' : g = true ↔ b.low.elem ≠ b.high.elem := by
      rw [hg, Function.ne_iff]; simp
    have hone : ∀ i j, b.low.elem i ≠ b.high.elem i → b.low.elem j ≠ b.high.elem j → i = j := by
      intro i j a1 a2
      by_contra hij
      have := h1.2 (Or.inr ⟨i, by simp, j, by simp, hij, a1, a2⟩)
      rw [this] at hd; exact absurd hd (by simp)
    simp only [Bool.and_eq_true]
    constructor
    · rintro ⟨k1, k2⟩
      refine ⟨hone, k1, fun hne => ?_⟩
      rw [if_pos (hg'.2 hne)] at k2; exact k2
    · rintro ⟨-, k1, k2⟩
      refine ⟨k1, ?_⟩
      split_ifs with hgt
      · exact k2 (hg'.1 hgt)
      · rfl

/-- C134, segment containing a segment, a box or a ball: in the plane and in space the tolerant test accepts everything that lies in the segment. -/
theorem C134_holds (r : Rounding 53) (s s' : Seg n) (a : Box n) (b : Ball n) (hn : n ≤ 3) :
    (segSet s' ⊆ segSet s → Fl.containsSS r s s' false = true) ∧
    (Ordered a → boxSet a ⊆ segSet s → Fl.containsSB r s a false = true) ∧
    (2 ≤ n → 0 ≤ b.radius → ballSet b ⊆ segSet s → Fl.containsSBall r s b false = true) := by
  refine ⟨fun h => ?_, fun ho h => ?_, fun h2 hr h => ?_⟩
  · unfold Fl.containsSS
    rw [Bool.and_eq_true]
    exact ⟨(C134_point_on r _ _ hn (h (p1_mem s'))).1, (C134_point_on r _ _ hn (h (p2_mem s'))).1⟩
  · have e := (containsSB_iff s a false).1 (C88_box s a ho h)
    rw [Fl.containsSB_iff]
    exact ⟨e.1, (C134_point_on r _ _ hn (h fun i => ⟨le_rfl, ho i⟩)).1, fun _ => (C134_point_on r _ _ hn (h fun i => ⟨ho i, le_rfl⟩)).1⟩
  · have e := (C88_ball s b false).1 (C88_ball_inside s b h2 hr h)
    unfold Fl.containsSBall
    rw [Bool.and_eq_true, decide_eq_true_iff]
    refine ⟨e.1, (C134_point_on r _ _ hn (h ?_)).1⟩
    show eucl _ _ ≤ _
    rw [eucl_self]; exact hr

/-- C134, conversely: what the proper tests accept lies within `√(20 ε)` times the segment's length of it. -/
theorem C134_holds_near (r : Rounding 53) (s s' : Seg n) (a : Box n) (b : Ball n) (hn : n ≤ 50) :
    (Fl.containsSS r s s' true = true → ∀ x ∈ segSet s', ∃ y ∈ segSet s, eucl x y ≤ Real.sqrt (20 * epsilon) * eucl s.p1.elem s.p2.elem) ∧
    (Ordered a → Fl.containsSB r s a true = true → ∀ x ∈ boxSet a, ∃ y ∈ segSet s, eucl x y ≤ Real.sqrt (20 * epsilon) * eucl s.p1.elem s.p2.elem) ∧
    (Fl.containsSBall r s b true = true → ∀ x ∈ ballSet b, ∃ y ∈ segSet s, eucl x y ≤ Real.sqrt (20 * epsilon) * eucl s.p1.elem s.p2.elem) := by
  refine ⟨fun h => ?_, fun ho h => ?_, fun h x hx => ?_⟩
  · unfold Fl.containsSS at h
    rw [Bool.and_eq_true] at h
    rintro x ⟨t, t0, t1, rfl⟩
    exact near_seg (C134_point_near r _ _ hn h.1) (C134_point_near r _ _ hn h.2) t0 t1 rfl
  · rw [Fl.containsSB_iff] at h
    obtain ⟨h1, h2, h3⟩ := h
    intro x hx
    by_cases hne : a.low.elem = a.high.elem
    · have : x = a.low.elem := by
        funext i
        have := hx i
        have e := congrFun hne i
        linarith [this.1, this.2]
      rw [this]; exact C134_point_near r _ _ hn h2
    · obtain ⟨k, hk⟩ := Function.ne_iff.1 hne
      have hlk : a.low.elem k < a.high.elem k := lt_of_le_of_ne (ho k) hk
      have hd : 0 < a.high.elem k - a.low.elem k := by linarith
      have hxk := hx k
      refine near_seg (C134_point_near r _ _ hn h2) (C134_point_near r _ _ hn (h3 hne))
        (t := (x k - a.low.elem k) / (a.high.elem k - a.low.elem k)) (div_nonneg (by linarith) hd.le)
        (by rw [div_le_one hd]; linarith) ?_
      funext i
      simp only [Pi.add_apply, Pi.smul_apply, smul_eq_mul]
      by_cases hi : a.low.elem i = a.high.elem i
      · have := hx i
        rw [hi]
        have : x i = a.high.elem i := by linarith [this.1, this.2]
        rw [this]; ring
      · rw [h1 i k hi hk]
        field_simp
        ring
  · unfold Fl.containsSBall at h
    rw [Bool.and_eq_true, decide_eq_true_iff] at h
    have h0 : eucl x b.center.elem ≤ 0 := by rw [← h.1]; exact hx
    have : x = b.center.elem := by
      rw [eucl_eq_len] at h0
      exact sub_eq_zero.1 (len_eq_zero.1 (le_antisymm h0 (len_nonneg _)))
    rw [this]
    exact C134_point_near r _ _ hn h.2

/-! ### Cases -/

/-- A slanted segment in the plane. -/
noncomputable def slant : Seg 2 := ⟨⟨![0, 0], true⟩, ⟨![4, 2], true⟩⟩
/-- Its middle. -/
noncomputable def slantMid : Pt 2 := ⟨![2, 1], true⟩

theorem slantMid_mem : slantMid.elem ∈ segSet slant :=
  ⟨1 / 2, by norm_num, by norm_num, by funext i; fin_cases i <;> simp [slantMid, slant] <;> norm_num⟩
theorem slant_len : eucl slant.p1.elem slant.p2.elem = Real.sqrt 20 := by
  rw [eucl_eq_len]; unfold len; congr 1; simp [slant, dotProduct, Fin.sum_univ_two]; norm_num
theorem slant_proper (r : Rounding 53) : Fl.interSP r slant slantMid true = true := by
  refine (C134_point_on r slant slantMid (by norm_num) slantMid_mem).2.1 (fun h => ?_) (fun h => ?_) ?_
  · have := congrFun h 0; simp [slant, slantMid] at this
  · have := congrFun h 0; simp [slant, slantMid] at this
  · rw [slant_len]
    have he2 := epsilon_lt
    norm_num at he2
    exact Real.le_sqrt_of_sq_le (by nlinarith [epsilon_pos])

example (r : Rounding 53) : ∃ x ∈ segSet slant, eucl slantMid.elem x ≤ Real.sqrt (20 * epsilon) * eucl slant.p1.elem slant.p2.elem :=
  C134_point_near r slant slantMid (by norm_num) (slant_proper r)
example (r : Rounding 53) := C134_point_near_tolerant r slant slantMid (by norm_num) (C134_point_on r slant slantMid (by norm_num) slantMid_mem).1
example (r : Rounding 53) : Fl.containsSS r slant ⟨slant.p1, slantMid⟩ false = true := by
  refine (C134_holds r slant ⟨slant.p1, slantMid⟩ ⟨slantMid, slantMid⟩ ⟨slantMid, 0⟩ (by norm_num)).1 ?_
  rintro x ⟨t, t0, t1, rfl⟩
  refine ⟨t / 2, by linarith, by linarith, ?_⟩
  funext i; fin_cases i <;> simp [slant, slantMid] <;> ring
example (r : Rounding 53) : ∀ x ∈ segSet ⟨slantMid, slantMid⟩, ∃ y ∈ segSet slant, eucl x y ≤ Real.sqrt (20 * epsilon) * eucl slant.p1.elem slant.p2.elem := by
  refine (C134_holds_near r slant ⟨slantMid, slantMid⟩ ⟨slantMid, slantMid⟩ ⟨slantMid, 0⟩ (by norm_num)).1 ?_
  unfold Fl.containsSS
  rw [slant_proper r]; rfl

/-- A box and a ball the segment goes through. -/
noncomputable def slantBox : Box 2 := ⟨⟨![1, 0], true⟩, ⟨![3, 2], true⟩⟩
theorem slantBox_ordered : Ordered slantBox := fun i => by fin_cases i <;> simp [slantBox] <;> norm_num
example (r : Rounding 53) := C134_box_backward r slant slantBox slantBox_ordered
example (r : Rounding 53) : Fl.interSB r slant slantBox true = true := by
  refine (C134_box r slant slantBox slantBox_ordered).2.1 ⟨_, slantMid_mem, fun i => ?_⟩
  fin_cases i <;> simp [slant, slantMid, slantBox] <;> norm_num
example (r : Rounding 53) : Fl.containsBS r ⟨⟨![-1, -1], true⟩, ⟨![5, 5], true⟩⟩ slant true = true := by
  refine (C134_in_box r _ slant fun i => by fin_cases i <;> simp <;> norm_num).1.2 ?_
  rintro x ⟨t, t0, t1, rfl⟩ i
  fin_cases i <;> simp [slant] <;> constructor <;> linarith
theorem slant_ball (r : Rounding 53) : Fl.interSBall r slant ⟨slantMid, 1⟩ true = true := by
  refine C134_ball_complete r slant ⟨slantMid, 1⟩ (by norm_num) true ⟨_, slantMid_mem, ?_⟩
  have h : eucl slantMid.elem slant.p1.elem ≤ 3 := by
    rw [eucl_eq_len]; unfold len
    rw [Real.sqrt_le_left (by norm_num)]; simp [slant, slantMid, dotProduct, Fin.sum_univ_two]; norm_num
  have he2 := epsilon_lt
  have he := epsilon_pos
  norm_num at he2
  rw [eucl_self]
  have : (2 : ℝ) ^ (-43 : ℤ) * eucl slantMid.elem slant.p1.elem ≤ 1 / 100 := by
    have : (2 : ℝ) ^ (-43 : ℤ) ≤ 1 / 300 := by norm_num
    nlinarith [eucl_nonneg slantMid.elem slant.p1.elem]
  show (0 + 2 ^ (-43 : ℤ) * eucl slantMid.elem slant.p1.elem + 3 * epsilon) * (1 + epsilon) ≤ 1
  generalize 2 ^ (-43 : ℤ) * eucl slantMid.elem slant.p1.elem = q at *
  nlinarith
example (r : Rounding 53) := C134_ball_sound r slant ⟨slantMid, 1⟩ (by norm_num) (by norm_num) true (slant_ball r)
example (r : Rounding 53) : Fl.containsBallS r ⟨slantMid, 3⟩ slant true = true := by
  refine (C134_in_ball r ⟨slantMid, 3⟩ slant (by norm_num) (by norm_num)).2.1 ?_
  rintro x ⟨t, t0, t1, rfl⟩
  show eucl _ _ < 3
  rw [eucl_eq_len]; unfold len
  rw [Real.sqrt_lt' (by norm_num)]; simp [slant, slantMid, dotProduct, Fin.sum_univ_two]
  nlinarith

end WFMath
