/- Property theorems C153: boxes that contain polygons in space, computed with rounding. -/
import Verif.Model.RoundedPolyBox
import Verif.Props.RoundPoly3Move
import Verif.Props.RoundRBoxTest
import Verif.Props.PolyContains

namespace WFMath
open Spec Matrix Rounding
variable {n : Nat}

namespace Spec
/-- The corners of a polygon in space as `getCorner` returns them, computed with rounding. -/
def readCorners (r : Rounding 53) (s : Poly n) : Set (Fin n → ℝ) := {x | ∃ (i : Nat) (c : Pt n), Fl.polyCorner r s i = some c ∧ x = c.elem}
/-- All corners of a polygon can be read: `getCorner` does not fail. -/
def CanRead (r : Rounding 53) (s : Poly n) : Prop := ∀ i < s.numCorners, ∃ c, Fl.polyCorner r s i = some c
end Spec

/-- A loop over corners that can all be read. -/
theorem allCorners_some {α : Type} {get : α → Option (Pt n)} {test : Pt n → Bool} {l : List α} (h : ∀ q ∈ l, ∃ c, get q = some c) :
    (∃ a, allCorners get test l = some a) ∧ (allCorners get test l = some true ↔ ∀ q ∈ l, ∀ c, get q = some c → test c = true) := by
  induction l with
  | nil => simp [allCorners]
  | cons q qs ih =>
    obtain ⟨c, hc⟩ := h q (by simp)
    obtain ⟨i1, i2⟩ := ih fun x hx => h x (by simp [hx])
    unfold allCorners
    rw [hc, Option.bind_some]
    by_cases ht : test c = true
    · simp only [ht, Bool.not_true, Bool.false_eq_true, if_false]
      refine ⟨i1, ?_⟩
      rw [i2]
      constructor
      · intro hh x hx d hd
        rcases List.mem_cons.1 hx with rfl | hx
        · rw [hc] at hd; cases hd; exact ht
        · exact hh x hx d hd
      · exact fun hh x hx => hh x (by simp [hx])
    · rw [if_pos (by simp [ht])]
      refine ⟨⟨_, rfl⟩, ?_⟩
      constructor
      · intro hh; simp at hh
      · intro hh; exact absurd (hh q (by simp) c hc) ht

theorem mem_poly_iff {s : Poly n} {q : Pt 2} : q ∈ s.poly ↔ ∃ i < s.numCorners, s.poly.getCorner i = some q := by
  unfold Corners.getCorner
  rw [List.mem_iff_getElem?]
  constructor
  · rintro ⟨i, hi⟩
    exact ⟨i, (List.getElem?_eq_some_iff.1 hi).1, hi⟩
  · rintro ⟨i, -, hi⟩
    exact ⟨i, hi⟩

theorem canRead_convert {r : Rounding 53} {s : Poly n} (h : CanRead r s) {q : Pt 2} (hq : q ∈ s.poly) : ∃ c, Fl.convert r s.orient q = some c ∧ c.elem ∈ readCorners r s := by
  obtain ⟨i, hi, hq⟩ := mem_poly_iff.1 hq
  obtain ⟨c, hc⟩ := h i hi
  exact ⟨c, by rwa [polyCorner_of hq] at hc, i, c, hc, rfl⟩

theorem readCorner_mem {r : Rounding 53} {s : Poly n} {x : Fin n → ℝ} (h : x ∈ readCorners r s) : ∃ q ∈ s.poly, ∃ c, Fl.convert r s.orient q = some c ∧ x = c.elem := by
  obtain ⟨i, c, hc, rfl⟩ := h
  cases hq : s.poly.getCorner i with
  | none => unfold Fl.polyCorner at hc; rw [hq] at hc; simp at hc
  | some q =>
    refine ⟨q, mem_poly_iff.2 ⟨i, ?_, hq⟩, c, by rwa [polyCorner_of hq] at hc, rfl⟩
    exact (List.getElem?_eq_some_iff.1 hq).1

/-- C153, axis-aligned boxes: an answer is given; the proper test says exactly that the convex hull of the corners, as they are read, is inside the box, and the tolerant test
that it is in the box up to epsilon. -/
theorem C153_box (r : Rounding 53) (b : Box n) (s : Poly n) (hs : CanRead r s) :
    (∀ proper, ∃ a, Fl.containsBPolyN r b s proper = some a) ∧
    (Fl.containsBPolyN r b s true = some true ↔ convexHull ℝ (readCorners r s) ⊆ boxInterior b) ∧
    (Ordered b → readCorners r s ⊆ near epsilon (boxSet b) → Fl.containsBPolyN r b s false = some true) ∧
    (Ordered b → Fl.containsBPolyN r b s false = some true → readCorners r s ⊆ near (epsilon * (1 + 2 ^ (-52 : ℤ))) (boxSet b)) := by
  have hg : ∀ q ∈ s.poly, ∃ c, Fl.convert r s.orient q = some c := fun q hq => ⟨_, (canRead_convert hs hq).choose_spec.1⟩
  have key : ∀ proper, Fl.containsBPolyN r b s proper = some true ↔ ∀ q ∈ s.poly, ∀ c, Fl.convert r s.orient q = some c → Fl.interBP r b c proper = true :=
    fun proper => (allCorners_some hg).2
  refine ⟨fun proper => (allCorners_some hg).1, ?_, fun ho h => (key false).2 fun q hq c hc => (C114_box r b b ho ho c).1 (h ?_), fun ho h x hx => ?_⟩
  · rw [key, (convex_boxInterior b).convexHull_subset_iff]
    constructor
    · intro h x hx
      obtain ⟨q, hq, c, hc, rfl⟩ := readCorner_mem hx
      exact ((C114_box_proper r b b c).1).1 (h q hq c hc)
    · intro h q hq c hc
      obtain ⟨c', hc', hm⟩ := canRead_convert hs hq
      rw [hc] at hc'
      cases hc'
      exact ((C114_box_proper r b b c).1).2 (h hm)
  · obtain ⟨c', hc', hm⟩ := canRead_convert hs hq
    rw [hc] at hc'
    cases hc'
    exact hm
  · obtain ⟨q, hq, c, hc, rfl⟩ := readCorner_mem hx
    exact (C114_box r b b ho ho c).2.1 ((key false).1 h q hq c hc)

/-- C153: what the answer says of the points a polygon was made from by `addCorner`: when a box is found to contain the polygon, each of them is near a point of the box, the distance
being at most the tolerances of `addCorner` and of the test. -/
theorem C153_built (r : Rounding 53) (hn : n ≤ 3) (eps : ℝ) (he : epsilon ≤ eps) (he1 : eps ≤ 1) (s : Poly n) (ps : List (Pt n)) (f : Pt n) (h : Built3 r eps s ps (some f)) (b : Box n) :
    CanRead r s ∧
    (Fl.containsBPolyN r b s true = some true → ∀ p ∈ ps, ∃ x ∈ boxInterior b,
      eucl x p.elem ≤ 3 * epsilon + Real.sqrt (eps + 2 ^ (-20 : ℤ)) * eucl p.elem f.elem + 2 ^ (-51 : ℤ) * eucl f.elem 0) ∧
    ((∀ p ∈ ps, ∀ x, eucl x p.elem ≤ 3 * epsilon + Real.sqrt (eps + 2 ^ (-20 : ℤ)) * eucl p.elem f.elem + 2 ^ (-51 : ℤ) * eucl f.elem 0 → x ∈ boxInterior b) →
      Fl.containsBPolyN r b s true = some true) := by
  obtain ⟨k1, -, k3⟩ := C140_default r hn eps he he1 s ps _ h
  have hread : CanRead r s := fun i hi => by
    obtain ⟨c, -, hc, -⟩ := k3 i (ps[i]'(by rw [← k1]; exact hi)) (List.getElem?_eq_getElem _)
    exact ⟨c, hc⟩
  obtain ⟨-, b2, -⟩ := C153_box r b s hread
  rw [b2, (convex_boxInterior b).convexHull_subset_iff]
  refine ⟨hread, fun hb p hp => ?_, fun hb x hx => ?_⟩
  · obtain ⟨i, hi⟩ := List.mem_iff_getElem?.1 hp
    obtain ⟨c, f', hc, -, hf, hd⟩ := k3 i p hi
    cases hf
    exact ⟨c.elem, hb ⟨i, c, hc, rfl⟩, hd⟩
  · obtain ⟨i, c, hc, rfl⟩ := hx
    have hi : i < ps.length := by
      rw [← k1]
      unfold Fl.polyCorner at hc
      cases hq : s.poly.getCorner i with
      | none => rw [hq] at hc; simp at hc
      | some q => exact (List.getElem?_eq_some_iff.1 hq).1
    obtain ⟨c', f', hc', -, hf, hd⟩ := k3 i ps[i] (List.getElem?_eq_getElem hi)
    cases hf
    rw [hc] at hc'
    cases hc'
    exact hb _ (List.getElem_mem hi) _ hd

/-- C153, rotated boxes: `R` is an exact rotation and the orientation of the box stands for it up to `E`. An answer is given; what the tests accept has its corners, as they are read, in
the box up to the stated margin, and polygons whose corners are in the box by that margin are accepted. -/
theorem C153_turned (r : Rounding 53) (b : RBox n) (R : Matrix (Fin n) (Fin n) ℝ) (E : ℝ) (hn : n < 2 ^ 52) (hR : Rᵀ * R = 1)
    (h0 : 2 * n * (n + 1) * 2 ^ (-52 : ℤ) ≤ E) (h1 : E ≤ 1 / 100) (hm : Stands b.orient.elem R (E - 2 * n * (n + 1) * 2 ^ (-52 : ℤ))) (hv : b.orient.valid = true)
    (hc : b.corner.valid = true) (s : Poly n) (η : ℝ) (hη : η ≤ 1 / 10) (hb : NearBasis s.orient η) (hs : CanRead r s) (ρ : ℝ) (hρ : ∀ q ∈ s.poly, reach q ≤ ρ) (M : ℝ)
    (hM : M = (2 * E + 10 * 2 ^ (-53 : ℤ)) * (eucl s.orient.origin.elem b.corner.elem + ρ) + 2 ^ (-50 : ℤ) * len b.corner.elem + 2 ^ (-53 : ℤ) * len (b.corner.elem + b.size.elem)) :
    (∀ proper, ∃ a, Fl.containsRPolyN r b s proper = some a) ∧
    (readCorners r s ⊆ turnedBox b.corner.elem b.size.elem R (epsilon - M) → Fl.containsRPolyN r b s false = some true) ∧
    (readCorners r s ⊆ turnedInterior b.corner.elem b.size.elem R (-M) → Fl.containsRPolyN r b s true = some true) ∧
    (Fl.containsRPolyN r b s false = some true → readCorners r s ⊆ turnedBox b.corner.elem b.size.elem R (epsilon * (1 + 2 ^ (-52 : ℤ)) + M)) ∧
    (Fl.containsRPolyN r b s true = some true → readCorners r s ⊆ turnedInterior b.corner.elem b.size.elem R M) := by
  have hR' : R * Rᵀ = 1 := mul_eq_one_comm.1 hR
  have hRt : Rᵀᵀ * Rᵀ = 1 := by rwa [transpose_transpose]
  have hin : (b.orient.inverse).elem = b.orient.elemᵀ := RotMat.inverse_elem _
  have hmt : Stands (b.orient.inverse).elem Rᵀ (E - 2 * n * (n + 1) * 2 ^ (-52 : ℤ)) := by rw [hin]; exact Fl.stands_transpose (sub_nonneg.2 h0) hm
  obtain ⟨-, -, hmv⟩ := C144_rotate r b.orient.inverse Rᵀ E hn hRt h0 h1 hmt hv s η hη hb b.corner hc
  have hE : 0 ≤ E := le_trans (by positivity) h0
  have face := Fl.flat_face r b
  -- every corner, as it is read and as it is tested
  have key : ∀ q ∈ s.poly, ∃ c c', Fl.convert r s.orient q = some c ∧ c.elem ∈ readCorners r s ∧
      Fl.convert r (Fl.orRotate r s.orient b.orient.inverse b.corner) q = some c' ∧
      ∀ i, |c'.elem i - (b.corner.elem i + (R *ᵥ (c.elem - b.corner.elem)) i)| ≤ M - 2 ^ (-53 : ℤ) * len (b.corner.elem + b.size.elem) := by
    intro q hq
    obtain ⟨i, hi, hqi⟩ := mem_poly_iff.1 hq
    obtain ⟨c, hci⟩ := hs i hi
    obtain ⟨c', k1, -, k3⟩ := hmv i q c hqi hci
    refine ⟨c, c', by rwa [polyCorner_of hqi] at hci, ⟨i, c, hci, rfl⟩, (polyCorner_of (s := Fl.poly3Rotate r s b.orient.inverse b.corner) hqi).symm.trans k1, fun j => ?_⟩
    refine (abs_le_len (c'.elem - (b.corner.elem + R *ᵥ (c.elem - b.corner.elem))) j).trans ?_
    beta_reduce at k3
    rw [vecMul_transpose] at k3
    refine k3.trans ?_
    rw [hM]
    have := mul_le_mul_of_nonneg_left (hρ q hq) (show 0 ≤ 2 * E + 10 * 2 ^ (-53 : ℤ) by positivity)
    linarith
  have hg : ∀ q ∈ s.poly, ∃ c, Fl.convert r (Fl.orRotate r s.orient b.orient.inverse b.corner) q = some c := fun q hq => by
    obtain ⟨-, c', -, -, h, -⟩ := key q hq
    exact ⟨c', h⟩
  have ans : ∀ proper, Fl.containsRPolyN r b s proper = some true ↔
      ∀ q ∈ s.poly, ∀ c, Fl.convert r (Fl.orRotate r s.orient b.orient.inverse b.corner) q = some c → Fl.interBP r (Fl.rbFlat r b) c proper = true :=
    fun proper => (allCorners_some hg).2
  have hord : Ordered (Fl.rbFlat r b) := Fl.flat_ordered r b
  have hd : 0 ≤ epsilon * (1 + 2 ^ (-52 : ℤ)) := mul_nonneg epsilon_pos.le (by positivity)
  generalize hk : (2 : ℝ) ^ (-53 : ℤ) * len (b.corner.elem + b.size.elem) = k at *
  have box : ∀ {δ : ℝ} {x : Fin n → ℝ}, 0 ≤ δ → (x ∈ near δ (boxSet (Fl.rbFlat r b)) ↔ _) := fun {δ x} hδ => mem_near_box hord hδ
  refine ⟨fun proper => (allCorners_some hg).1, fun h => (ans false).2 fun q hq d hdq => ?_, fun h => (ans true).2 fun q hq d hdq => ?_, fun h x hx => ?_, fun h x hx => ?_⟩
  · obtain ⟨c, c', -, hm, hcc, hj⟩ := key q hq
    rw [hdq] at hcc
    cases hcc
    refine (C114_box r _ _ hord hord d).1 ((box epsilon_pos.le).2 fun i => ?_)
    have a := h hm i
    have g := _root_.abs_le.1 (hj i)
    have f1 := _root_.abs_le.1 (face i).1
    have f2 := _root_.abs_le.1 (face i).2
    constructor <;> linarith
  · obtain ⟨c, c', -, hm, hcc, hj⟩ := key q hq
    rw [hdq] at hcc
    cases hcc
    refine ((C114_box_proper r (Fl.rbFlat r b) (Fl.rbFlat r b) d).1).2 fun i => ?_
    have a := h hm i
    have g := _root_.abs_le.1 (hj i)
    have f1 := _root_.abs_le.1 (face i).1
    have f2 := _root_.abs_le.1 (face i).2
    constructor <;> linarith
  · obtain ⟨q, hq, c, hcq, rfl⟩ := readCorner_mem hx
    obtain ⟨c2, c', hc2, -, hcc, hj⟩ := key q hq
    rw [hcq] at hc2
    cases hc2
    intro i
    have a := (box hd).1 ((C114_box r _ _ hord hord c').2.1 ((ans false).1 h q hq c' hcc)) i
    have g := _root_.abs_le.1 (hj i)
    have f1 := _root_.abs_le.1 (face i).1
    have f2 := _root_.abs_le.1 (face i).2
    constructor <;> linarith
  · obtain ⟨q, hq, c, hcq, rfl⟩ := readCorner_mem hx
    obtain ⟨c2, c', hc2, -, hcc, hj⟩ := key q hq
    rw [hcq] at hc2
    cases hc2
    intro i
    have a := ((C114_box_proper r (Fl.rbFlat r b) (Fl.rbFlat r b) c').1).1 ((ans true).1 h q hq c' hcc) i
    have g := _root_.abs_le.1 (hj i)
    have f1 := _root_.abs_le.1 (face i).1
    have f2 := _root_.abs_le.1 (face i).2
    constructor <;> linarith

end WFMath
