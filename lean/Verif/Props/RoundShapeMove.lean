/- Property theorems C141: segments, lines, plane polygons, balls and rotated boxes moved and turned in floating point arithmetic. -/
import Verif.Lemmas.RoundShapeMove

namespace WFMath
open Spec Matrix Rounding
variable {n : Nat}

/-- C141, shifting: every corner of a segment, of a line or of a plane polygon, the centre of a ball and the first corner of a rotated box are the exact shifted ones with each
coordinate rounded once; nothing else of the shape changes. Shifting a segment back by the same vector gives the corners back up to three halves of a unit in the last place of
the larger of corner and vector, in each coordinate. -/
theorem C141_shift (r : Rounding 53) (v w : Vec n) (hw : ∀ i, w.elem i = -v.elem i) :
    (∀ (s : Seg n) (j : Nat) (i : Fin n), |((Fl.segShift r s v).getCorner j).elem i - ((s.getCorner j).elem i + v.elem i)| ≤
        2 ^ (-53 : ℤ) * |(s.getCorner j).elem i + v.elem i| ∧
      |((Fl.segShift r (Fl.segShift r s v) w).getCorner j).elem i - (s.getCorner j).elem i| ≤ 3 * 2 ^ (-53 : ℤ) * (|(s.getCorner j).elem i| + |v.elem i|)) ∧
    (∀ ps : Corners n, (Fl.lineShift r ps v).length = ps.length ∧ ∀ (k : Nat) (c c' : Pt n), ps[k]? = some c → (Fl.lineShift r ps v)[k]? = some c' →
      ∀ i, |c'.elem i - (c.elem i + v.elem i)| ≤ 2 ^ (-53 : ℤ) * |c.elem i + v.elem i|) ∧
    (∀ b : Ball n, (Fl.ballShift r b v).radius = b.radius ∧
      ∀ i, |(Fl.ballShift r b v).center.elem i - (b.center.elem i + v.elem i)| ≤ 2 ^ (-53 : ℤ) * |b.center.elem i + v.elem i|) ∧
    (∀ b : RBox n, (Fl.rbShift r b v).size = b.size ∧ (Fl.rbShift r b v).orient = b.orient ∧
      ∀ i, |(Fl.rbShift r b v).corner.elem i - (b.corner.elem i + v.elem i)| ≤ 2 ^ (-53 : ℤ) * |b.corner.elem i + v.elem i|) := by
  have key : ∀ x y : ℝ, |r (x + y) - (x + y)| ≤ 2 ^ (-53 : ℤ) * |x + y| := fun x y => by have := r.err Fl.pos53 (x + y); rwa [Fl.u53] at this
  refine ⟨fun s j i => ⟨?_, ?_⟩, fun ps => ⟨List.length_map _, fun k c c' h h' i => ?_⟩, fun b => ⟨rfl, fun i => key _ _⟩, fun b => ⟨rfl, rfl, fun i => key _ _⟩⟩
  · unfold Seg.getCorner
    split <;> exact key _ _
  · have a : ∀ x : ℝ, r (r (x + v.elem i) + w.elem i) = r (r (x + v.elem i) - v.elem i) := fun x => by rw [hw, ← sub_eq_add_neg]
    unfold Seg.getCorner
    split
    · show |r (r (s.p2.elem i + v.elem i) + w.elem i) - s.p2.elem i| ≤ _
      rw [a]; exact Fl.add_sub_rnd r _ _
    · show |r (r (s.p1.elem i + v.elem i) + w.elem i) - s.p1.elem i| ≤ _
      rw [a]; exact Fl.add_sub_rnd r _ _
  · rw [Fl.lineShift, List.getElem?_map, h, Option.map_some, Option.some.injEq] at h'
    rw [← h']; exact key _ _

/-- C141, moving a corner: the named end of a segment becomes exactly `p` and the other end keeps its exact offset from it, up to rounding; a line or polygon is moved by the
exact offset of `p` from the named corner, up to rounding, so that the named corner comes to lie next to `p`. Corners that are not there are refused. -/
theorem C141_move_corner (r : Rounding 53) (p : Pt n) :
    (∀ s : Seg n, ∃ a b, Fl.segMoveCorner r s p 0 = some ⟨p, a⟩ ∧ Fl.segMoveCorner r s p 1 = some ⟨b, p⟩ ∧
      (∀ i, |a.elem i - (p.elem i + (s.p2.elem i - s.p1.elem i))| ≤
        2 ^ (-53 : ℤ) * |p.elem i + (s.p2.elem i - s.p1.elem i)| + 2 ^ (-52 : ℤ) * |s.p2.elem i - s.p1.elem i|) ∧
      (∀ i, |b.elem i - (p.elem i - (s.p2.elem i - s.p1.elem i))| ≤
        2 ^ (-53 : ℤ) * |p.elem i - (s.p2.elem i - s.p1.elem i)| + 2 ^ (-52 : ℤ) * |s.p2.elem i - s.p1.elem i|) ∧
      ∀ k, 1 < k → Fl.segMoveCorner r s p k = none) ∧
    (∀ (ps : Corners n) (k : Nat), (ps.length ≤ k → Fl.lineMoveCorner r ps p k = none) ∧
      ∀ c, ps[k]? = some c → ∃ qs, Fl.lineMoveCorner r ps p k = some qs ∧ qs.length = ps.length ∧
        ∀ (j : Nat) (x y : Pt n), ps[j]? = some x → qs[j]? = some y → ∀ i, |y.elem i - (x.elem i + (p.elem i - c.elem i))| ≤
          2 ^ (-53 : ℤ) * |x.elem i + (p.elem i - c.elem i)| + 2 ^ (-52 : ℤ) * |p.elem i - c.elem i|) := by
  refine ⟨fun s => ⟨_, _, rfl, rfl, fun i => ?_, fun i => ?_, fun k hk => if_neg (by omega)⟩, fun ps k => ⟨fun h => ?_, fun c hc => ?_⟩⟩
  · have := Fl.add_rnd r (p.elem i) (s.p2.elem i - s.p1.elem i)
    rwa [← Fl.two_u, Fl.u53] at this
  · have := Fl.sub_rnd r (p.elem i) (s.p2.elem i - s.p1.elem i)
    rwa [← Fl.two_u, Fl.u53] at this
  · unfold Fl.lineMoveCorner; rw [List.getElem?_eq_none h]; rfl
  · refine ⟨_, by unfold Fl.lineMoveCorner; rw [hc]; rfl, List.length_map _, fun j x y hx hy i => ?_⟩
    simp only [Fl.lineShift, List.getElem?_map, hx, Option.map_some, Option.some.injEq] at hy
    rw [← hy]
    have := Fl.add_rnd r (x.elem i) (p.elem i - c.elem i)
    rwa [← Fl.two_u, Fl.u53] at this

/-- C141, moving the centre: every corner of a segment, line or plane polygon is moved by the exact offset of `p` from the exact centre, up to four units in the last place
of the sum of the sizes of the corners and of `p`. -/
theorem C141_move_center (r : Rounding 53) (p : Pt n) :
    (∀ (s : Seg n) (j : Nat) (i : Fin n),
      |((Fl.segMoveCenter r s p).getCorner j).elem i - ((s.getCorner j).elem i + (p.elem i - (s.p1.elem i + s.p2.elem i) / 2))| ≤
        2 ^ (-50 : ℤ) * (|s.p1.elem i| + |s.p2.elem i| + |p.elem i|)) ∧
    (∀ ps : Corners n, ps ≠ [] → ps.length ≤ 2 ^ 52 → (Fl.lineMoveCenter r ps p).length = ps.length ∧
      ∀ (j : Nat) (x y : Pt n), ps[j]? = some x → (Fl.lineMoveCenter r ps p)[j]? = some y → ∀ i,
        |y.elem i - (x.elem i + (p.elem i - (ps.map fun c => c.elem i).sum / ps.length))| ≤ 2 ^ (-50 : ℤ) * ((ps.map fun c => |c.elem i|).sum + |p.elem i|)) := by
  refine ⟨fun s j i => ?_, fun ps h hk => ⟨List.length_map _, fun j x y hx hy i => ?_⟩⟩
  · have hz := Fl.mid_rnd r (s.p1.elem i) (s.p2.elem i)
    have hg : |(s.p1.elem i + s.p2.elem i) / 2| ≤ |s.p1.elem i| + |s.p2.elem i| := by
      rw [abs_div, abs_of_pos (by norm_num : (0 : ℝ) < 2)]; linarith [abs_add_le (s.p1.elem i) (s.p2.elem i), abs_nonneg (s.p1.elem i + s.p2.elem i)]
    unfold Seg.getCorner
    split
    · exact Fl.move_rnd r hz le_rfl (by linarith [abs_nonneg (s.p1.elem i)]) hg
    · exact Fl.move_rnd r hz le_rfl (by linarith [abs_nonneg (s.p2.elem i)]) hg
  · rw [Fl.lineMoveCenter, Fl.lineShift, List.getElem?_map, hx, Option.map_some, Option.some.injEq] at hy
    rw [← hy]
    have hz := (C126_mean r ps h hk).1 i
    rw [Fl.two_u] at hz
    have hmem : |x.elem i| ≤ (ps.map fun c => |c.elem i|).sum :=
      List.single_le_sum (by intro a ha; obtain ⟨c, -, rfl⟩ := List.mem_map.1 ha; exact abs_nonneg _) _ (List.mem_map.2 ⟨x, List.mem_of_getElem? hx, rfl⟩)
    have hl : (1 : ℝ) ≤ ps.length := by
      have : 0 < ps.length := List.length_pos_iff.2 h
      exact_mod_cast this
    have hg : |(ps.map fun c => c.elem i).sum / ps.length| ≤ (ps.map fun c => |c.elem i|).sum := by
      rw [abs_div, abs_of_pos (by linarith : (0 : ℝ) < ps.length)]
      exact (div_le_self (abs_nonneg _) hl).trans (Fl.listSum_abs_le ps fun c => c.elem i)
    exact Fl.move_rnd r hz le_rfl hmem hg

/-- C141, turning about a point with a matrix that stands for the orthogonal matrix `R`: every corner of a segment, line or plane polygon and the centre of a ball come out
next to the exact rotation about `p`, with an error in proportion to their distance from `p` plus half a unit in the last place of `p`; the radius of a ball stays. -/
theorem C141_rotate (r : Rounding 53) (m : RotMat n) (R : Matrix (Fin n) (Fin n) ℝ) (E : ℝ) (hn : n < 2 ^ 52) (hR : Rᵀ * R = 1)
    (h0 : 2 * n * (n + 1) * 2 ^ (-52 : ℤ) ≤ E) (h1 : E ≤ 1 / 4) (hm : Stands m.elem R (E - 2 * n * (n + 1) * 2 ^ (-52 : ℤ))) (p : Pt n) :
    (∀ (s : Seg n) (j : Nat), len (((Fl.segRotate r s m p).getCorner j).elem - (p.elem + ((s.getCorner j).elem - p.elem) ᵥ* R)) ≤
      (2 * E + 3 * 2 ^ (-53 : ℤ)) * eucl (s.getCorner j).elem p.elem + 2 ^ (-53 : ℤ) * len p.elem) ∧
    (∀ ps : Corners n, (Fl.lineRotate r ps m p).length = ps.length ∧ ∀ (k : Nat) (x y : Pt n), ps[k]? = some x → (Fl.lineRotate r ps m p)[k]? = some y →
      len (y.elem - (p.elem + (x.elem - p.elem) ᵥ* R)) ≤ (2 * E + 3 * 2 ^ (-53 : ℤ)) * eucl x.elem p.elem + 2 ^ (-53 : ℤ) * len p.elem) ∧
    (∀ b : Ball n, (Fl.ballRotate r b m p).radius = b.radius ∧ len ((Fl.ballRotate r b m p).center.elem - (p.elem + (b.center.elem - p.elem) ᵥ* R)) ≤
      (2 * E + 3 * 2 ^ (-53 : ℤ)) * eucl b.center.elem p.elem + 2 ^ (-53 : ℤ) * len p.elem) := by
  have key := fun x => C125_about r m R E hn hR h0 h1 hm x p
  simp only [eucl_eq_len]
  refine ⟨fun s j => ?_, fun ps => ⟨List.length_map _, fun k x y hx hy => ?_⟩, fun b => ⟨rfl, key _⟩⟩
  · unfold Seg.getCorner
    split <;> exact key _
  · rw [Fl.lineRotate, List.getElem?_map, hx, Option.map_some, Option.some.injEq] at hy
    rw [← hy]; exact key _

/-- C141, turning about a corner: the named end of a segment stays exactly, and so does the named corner of a line or plane polygon whose coordinates are doubles; all
the other corners come out next to the exact rotation about it. Corners that are not there are refused. -/
theorem C141_rotate_corner (r : Rounding 53) (m : RotMat n) (R : Matrix (Fin n) (Fin n) ℝ) (E : ℝ) (hn : n < 2 ^ 52) (hR : Rᵀ * R = 1)
    (h0 : 2 * n * (n + 1) * 2 ^ (-52 : ℤ) ≤ E) (h1 : E ≤ 1 / 4) (hm : Stands m.elem R (E - 2 * n * (n + 1) * 2 ^ (-52 : ℤ))) :
    (∀ s : Seg n, ∃ a b, Fl.segRotateCorner r s m 0 = some ⟨s.p1, a⟩ ∧ Fl.segRotateCorner r s m 1 = some ⟨b, s.p2⟩ ∧
      len (a.elem - (s.p1.elem + (s.p2.elem - s.p1.elem) ᵥ* R)) ≤ (2 * E + 3 * 2 ^ (-53 : ℤ)) * eucl s.p2.elem s.p1.elem + 2 ^ (-53 : ℤ) * len s.p1.elem ∧
      len (b.elem - (s.p2.elem + (s.p1.elem - s.p2.elem) ᵥ* R)) ≤ (2 * E + 3 * 2 ^ (-53 : ℤ)) * eucl s.p1.elem s.p2.elem + 2 ^ (-53 : ℤ) * len s.p2.elem ∧
      ∀ k, 1 < k → Fl.segRotateCorner r s m k = none) ∧
    (∀ (ps : Corners n) (k : Nat), (ps.length ≤ k → Fl.lineRotateCorner r ps m k = none) ∧
      ∀ c, ps[k]? = some c → ∃ qs, Fl.lineRotateCorner r ps m k = some qs ∧ qs.length = ps.length ∧
        ((∀ i, IsFl 53 (c.elem i)) → ∀ c', qs[k]? = some c' → c'.elem = c.elem) ∧
        ∀ (j : Nat) (x y : Pt n), ps[j]? = some x → qs[j]? = some y →
          len (y.elem - (c.elem + (x.elem - c.elem) ᵥ* R)) ≤ (2 * E + 3 * 2 ^ (-53 : ℤ)) * eucl x.elem c.elem + 2 ^ (-53 : ℤ) * len c.elem) := by
  have key := fun x p => C125_about r m R E hn hR h0 h1 hm x p
  refine ⟨fun s => ⟨_, _, rfl, rfl, ?_, ?_, fun k hk => if_neg (by omega)⟩, fun ps k => ⟨fun h => ?_, fun c hc => ?_⟩⟩
  · rw [eucl_eq_len]; exact key _ _
  · rw [eucl_eq_len]; exact key _ _
  · unfold Fl.lineRotateCorner; rw [List.getElem?_eq_none h]; rfl
  · refine ⟨_, by unfold Fl.lineRotateCorner; rw [hc]; rfl, List.length_map _, fun hf c' h' => ?_,
      ((C141_rotate r m R E hn hR h0 h1 hm c).2.1 ps).2⟩
    simp only [Fl.lineRotate, List.getElem?_map, hc, Option.map_some, Option.some.injEq] at h'
    rw [← h', Fl.rotate_self r c m hf]

namespace Fl

/-- The lengths of sums of sizes. -/
theorem len_sum_abs (ps : List (Pt n)) : len (fun i => (ps.map fun p => |p.elem i|).sum) ≤ (ps.map fun p => len p.elem).sum := by
  induction ps with
  | nil => simp only [List.map_nil, List.sum_nil]; exact len_zero.le
  | cons p ps ih =>
    simp only [List.map_cons, List.sum_cons]
    have h := len_add_le (fun i => |p.elem i|) (fun i => (ps.map fun p => |p.elem i|).sum)
    have h2 : len (fun i => |p.elem i|) ≤ 1 * len p.elem := len_mono zero_le_one fun i => by rw [abs_abs, one_mul]
    rw [one_mul] at h2
    exact h.trans (add_le_add h2 ih)

theorem seg_center (r : Rounding 53) (s : Seg n) :
    len ((segCenter r s).elem - fun i => (s.p1.elem i + s.p2.elem i) / 2) ≤ 2 ^ (-52 : ℤ) * (len s.p1.elem + len s.p2.elem) := by
  have a : len ((segCenter r s).elem - fun i => (s.p1.elem i + s.p2.elem i) / 2) ≤ 2 ^ (-52 : ℤ) * len (fun i => |s.p1.elem i| + |s.p2.elem i|) :=
    len_mono (by positivity) fun i => by
      rw [abs_of_nonneg (add_nonneg (abs_nonneg (s.p1.elem i)) (abs_nonneg (s.p2.elem i))), two_u]
      exact mid_rnd r _ _
  have h := len_add_le (fun i => |s.p1.elem i|) (fun i => |s.p2.elem i|)
  have h2 : len (fun i => |s.p1.elem i|) ≤ 1 * len s.p1.elem := len_mono zero_le_one fun i => by rw [abs_abs, one_mul]
  have h3 : len (fun i => |s.p2.elem i|) ≤ 1 * len s.p2.elem := len_mono zero_le_one fun i => by rw [abs_abs, one_mul]
  exact a.trans (mul_le_mul_of_nonneg_left (h.trans (by linarith)) (by positivity))

theorem line_center (r : Rounding 53) (ps : Corners n) (h : ps ≠ []) (hk : ps.length ≤ 2 ^ 52) :
    len ((barycenter r ps).elem - fun i => (ps.map fun p => p.elem i).sum / ps.length) ≤ 2 ^ (-52 : ℤ) * (ps.map fun p => len p.elem).sum := by
  have a : len ((barycenter r ps).elem - fun i => (ps.map fun p => p.elem i).sum / ps.length) ≤ 2 ^ (-52 : ℤ) * len (fun i => (ps.map fun p => |p.elem i|).sum) :=
    len_mono (by positivity) fun i => by
      have : 0 ≤ (ps.map fun p => |p.elem i|).sum := List.sum_nonneg (by intro a ha; obtain ⟨c, -, rfl⟩ := List.mem_map.1 ha; exact abs_nonneg _)
      rw [abs_of_nonneg this]
      exact (C126_mean r ps h hk).1 i
  exact a.trans (mul_le_mul_of_nonneg_left (len_sum_abs ps) (by positivity))

end Fl

/-- C141, turning about the centre: every corner of a segment, line or plane polygon comes out next to the exact rotation about the exact centre `g`; besides the error of
a rotation about a point there is twice the error `d` of the centre, which is at most a unit in the last place of the sum of the lengths of the corners. -/
theorem C141_rotate_center (r : Rounding 53) (m : RotMat n) (R : Matrix (Fin n) (Fin n) ℝ) (E : ℝ) (hn : n < 2 ^ 52) (hR : Rᵀ * R = 1)
    (h0 : 2 * n * (n + 1) * 2 ^ (-52 : ℤ) ≤ E) (h1 : E ≤ 1 / 4) (hm : Stands m.elem R (E - 2 * n * (n + 1) * 2 ^ (-52 : ℤ))) :
    (∀ (s : Seg n) (g : Fin n → ℝ) (d : ℝ), (∀ i, g i = (s.p1.elem i + s.p2.elem i) / 2) → d = 2 ^ (-52 : ℤ) * (len s.p1.elem + len s.p2.elem) →
      ∀ j, len (((Fl.segRotateCenter r s m).getCorner j).elem - (g + ((s.getCorner j).elem - g) ᵥ* R)) ≤
        (2 * E + 3 * 2 ^ (-53 : ℤ)) * (eucl (s.getCorner j).elem g + d) + 2 ^ (-53 : ℤ) * (len g + d) + 2 * d) ∧
    (∀ (ps : Corners n) (g : Fin n → ℝ) (d : ℝ), ps ≠ [] → ps.length ≤ 2 ^ 52 → (∀ i, g i = (ps.map fun c => c.elem i).sum / ps.length) →
      d = 2 ^ (-52 : ℤ) * (ps.map fun c => len c.elem).sum → (Fl.lineRotateCenter r ps m).length = ps.length ∧
      ∀ (k : Nat) (x y : Pt n), ps[k]? = some x → (Fl.lineRotateCenter r ps m)[k]? = some y →
        len (y.elem - (g + (x.elem - g) ᵥ* R)) ≤ (2 * E + 3 * 2 ^ (-53 : ℤ)) * (eucl x.elem g + d) + 2 ^ (-53 : ℤ) * (len g + d) + 2 * d) := by
  have hE : 0 ≤ E := le_trans (by positivity) h0
  have hT : 0 ≤ 2 * E + 3 * 2 ^ (-53 : ℤ) := by positivity
  have ht : (0 : ℝ) ≤ 2 ^ (-53 : ℤ) := by positivity
  have key := fun x p => C125_about r m R E hn hR h0 h1 hm x p
  simp only [eucl_eq_len]
  refine ⟨fun s g d hg hd j => ?_, fun ps g d h hk hg hd => ⟨List.length_map _, fun k x y hx hy => ?_⟩⟩
  · have hz : len ((Fl.segCenter r s).elem - g) ≤ d := by rw [show g = _ from funext hg, hd]; exact Fl.seg_center r s
    unfold Seg.getCorner
    split <;> exact Fl.about_near hR hT ht hz (key _ _)
  · have hz : len ((Fl.barycenter r ps).elem - g) ≤ d := by rw [show g = _ from funext hg, hd]; exact Fl.line_center r ps h hk
    rw [Fl.lineRotateCenter, Fl.lineRotate, List.getElem?_map, hx, Option.map_some, Option.some.injEq] at hy
    rw [← hy]; exact Fl.about_near hR hT ht hz (key _ _)

namespace Fl

theorem turnedCorner_eq (c s : Fin n → ℝ) (R : Matrix (Fin n) (Fin n) ℝ) (i : Nat) :
    turnedCorner c s R i = c + (fun j : Fin n => if i.testBit j then s j else 0) ᵥ* R := by
  ext k
  simp only [turnedCorner, Pi.add_apply, vecMul, dotProduct, ite_mul, zero_mul]

theorem turnedCenter_eq (c s : Fin n → ℝ) (R : Matrix (Fin n) (Fin n) ℝ) : turnedCenter c s R = c + (fun j : Fin n => s j / 2) ᵥ* R := rfl

theorem bits_le (s : Fin n → ℝ) (i : Nat) : len (fun j : Fin n => if i.testBit j then s j else 0) ≤ len s := by
  refine (len_mono (c := 1) zero_le_one fun j => ?_).trans (one_mul _).le
  rw [one_mul]
  split_ifs
  · exact le_rfl
  · rw [abs_zero]; exact abs_nonneg _

theorem half_len (s : Fin n → ℝ) : len (fun j => s j / 2) = len s / 2 := by
  have : (fun j => s j / 2) = (1 / 2 : ℝ) • s := by ext j; simp; ring
  rw [this, len_smul]; norm_num; ring

/-- A point `c` moved by the offset of `p` from `z`, where `z` is `c + w` up to `d`. -/
theorem carry_err (r : Rounding 53) {c p z w : Fin n → ℝ} {E S d : ℝ} (hE : 0 ≤ E) (h1 : E ≤ 1 / 4) (hw : len w ≤ S) (hz : len (z - (c + w)) ≤ d)
    (hd : d ≤ (E + 2 ^ (-51 : ℤ)) * S + 2 ^ (-53 : ℤ) * len c) :
    len (((fun i => r (c i + r (p i - z i))) + w) - p) ≤ (E + 2 ^ (-50 : ℤ)) * S + 2 ^ (-50 : ℤ) * (len c + len p) := by
  have u0 := u_pos (p := 53)
  have us := u_small
  have e1 : (2 : ℝ) ^ (-51 : ℤ) = 4 * u 53 := by rw [u53]; norm_num
  have e2 : (2 : ℝ) ^ (-50 : ℤ) = 8 * u 53 := by rw [u53]; norm_num
  rw [e1, ← u53] at hd
  rw [e2]
  have a : len ((fun i => r (c i + r (p i - z i))) - (c + (p - z))) ≤ u 53 * len (c + (p - z)) + 2 * u 53 * len (p - z) := by
    have b : len ((fun i => r (c i + r (p i - z i))) - (c + (p - z))) ≤ 1 * len ((fun i => u 53 * |(c + (p - z)) i|) + fun i => 2 * u 53 * |(p - z) i|) :=
      len_mono zero_le_one fun i => by
        rw [one_mul]
        refine (add_rnd r (c i) (p i - z i)).trans (le_abs_self _)
    have b1 : len (fun i => u 53 * |(c + (p - z)) i|) ≤ u 53 * len (c + (p - z)) := len_mono u0.le fun i => by rw [abs_mul, abs_abs, abs_of_pos u0]
    have b2 : len (fun i => 2 * u 53 * |(p - z) i|) ≤ 2 * u 53 * len (p - z) := len_mono (by linarith) fun i => by rw [abs_mul, abs_abs, abs_of_pos (by linarith : 0 < 2 * u 53)]
    rw [one_mul] at b
    exact b.trans ((len_add_le _ _).trans (add_le_add b1 b2))
  have h2 := len_add_le ((fun i => r (c i + r (p i - z i))) - (c + (p - z))) (-(z - (c + w)))
  rw [show (fun i => r (c i + r (p i - z i))) - (c + (p - z)) + -(z - (c + w)) = ((fun i => r (c i + r (p i - z i))) + w) - p by abel, len_neg] at h2
  have h3 : len (c + (p - z)) ≤ len p + len w + len (z - (c + w)) := by
    have q1 := len_add_le (p + -w) (-(z - (c + w)))
    have q2 := len_add_le p (-w)
    rw [show p + -w + -(z - (c + w)) = c + (p - z) by abel, len_neg] at q1
    rw [len_neg] at q2
    linarith
  have h4 : len (p - z) ≤ len p + len c + len w + len (z - (c + w)) := by
    have q1 := len_add_le (c + (p - z)) (-c)
    rw [show c + (p - z) + -c = p - z by abel, len_neg] at q1
    linarith
  generalize len (((fun i => r (c i + r (p i - z i))) + w) - p) = X at *
  generalize len ((fun i => r (c i + r (p i - z i))) - (c + (p - z))) = Y at *
  generalize len (c + (p - z)) = A at *
  generalize len (p - z) = B at *
  generalize len (z - (c + w)) = Z at *
  have hS : 0 ≤ S := (len_nonneg w).trans hw
  have hC := len_nonneg c
  have hP := len_nonneg p
  generalize len c = C at *
  generalize len p = P at *
  generalize len w = W at *
  have hES : E * S ≤ 1 / 4 * S := mul_le_mul_of_nonneg_right h1 hS
  have huS := mul_le_mul_of_nonneg_right us hS
  have huC := mul_le_mul_of_nonneg_right us hC
  have dd : d ≤ 27 / 100 * S + 1 / 100 * C := by linarith
  have h5 : A ≤ P + S + (27 / 100 * S + 1 / 100 * C) := by linarith
  have h6 : B ≤ P + C + S + (27 / 100 * S + 1 / 100 * C) := by linarith
  have h7 := mul_le_mul_of_nonneg_left h5 u0.le
  have h8 := mul_le_mul_of_nonneg_left h6 u0.le
  have k1 := mul_nonneg u0.le hS
  have k2 := mul_nonneg u0.le hC
  have k3 := mul_nonneg u0.le hP
  linarith

end Fl

/-- C141, moving a rotated box: sizes and orientation stay, and the exact corner named, or the exact centre, of the box that comes out lies next to the point asked for. `R` is
an exact rotation and the orientation stored stands for it up to `E`. -/
theorem C141_rotbox_move (r : Rounding 53) (b : RBox n) (R : Matrix (Fin n) (Fin n) ℝ) (E : ℝ) (hn : n < 2 ^ 52) (hR : Rᵀ * R = 1)
    (h0 : 2 * n * (n + 1) * 2 ^ (-52 : ℤ) ≤ E) (h1 : E ≤ 1 / 4) (hm : Stands b.orient.elem R (E - 2 * n * (n + 1) * 2 ^ (-52 : ℤ))) (p : Pt n) :
    (∀ i, 2 ^ n ≤ i → Fl.rbMoveCorner r b p i = none) ∧
    (∀ i < 2 ^ n, ∃ b', Fl.rbMoveCorner r b p i = some b' ∧ b'.size = b.size ∧ b'.orient = b.orient ∧
      eucl (turnedCorner b'.corner.elem b.size.elem R i) p.elem ≤ (E + 2 ^ (-50 : ℤ)) * len b.size.elem + 2 ^ (-50 : ℤ) * (len b.corner.elem + len p.elem)) ∧
    (Fl.rbMoveCenter r b p).size = b.size ∧ (Fl.rbMoveCenter r b p).orient = b.orient ∧
    eucl (turnedCenter (Fl.rbMoveCenter r b p).corner.elem b.size.elem R) p.elem ≤
      (E + 2 ^ (-50 : ℤ)) * len b.size.elem + 2 ^ (-50 : ℤ) * (len b.corner.elem + len p.elem) := by
  have hE : 0 ≤ E := le_trans (by positivity) h0
  have hR' : Rᵀᵀ * Rᵀ = 1 := by rw [transpose_transpose]; exact mul_eq_one_comm.1 hR
  have lA : ∀ v, len (v ᵥ* R) = len v := fun v => by rw [← mulVec_transpose, Fl.len_orth hR']
  obtain ⟨-, hc, hz⟩ := C135_corner r b R E hn hR h0 h1 hm
  have hS := len_nonneg b.size.elem
  refine ⟨fun i hi => ?_, fun i hi => ?_, rfl, rfl, ?_⟩
  · unfold Fl.rbMoveCorner Fl.rbCorner; rw [if_neg (by omega)]; rfl
  · obtain ⟨z, hz1, hz2⟩ := hc i hi
    refine ⟨Fl.rbShift r b (Fl.ptSub r p z), by unfold Fl.rbMoveCorner; rw [hz1]; rfl, rfl, rfl, ?_⟩
    rw [eucl_eq_len, Fl.turnedCorner_eq]
    refine Fl.carry_err r hE h1 ((lA _).trans_le (Fl.bits_le _ i)) (z := z.elem) (c := b.corner.elem) (p := p.elem) ?_ le_rfl
    rw [← Fl.turnedCorner_eq]; exact hz2
  · rw [eucl_eq_len, Fl.turnedCenter_eq]
    refine Fl.carry_err r hE h1 (((lA _).trans (Fl.half_len _)).trans_le (by linarith)) (z := (Fl.rbCenter r b).elem) (c := b.corner.elem) (p := p.elem)
      (d := (E + 2 ^ (-51 : ℤ)) * (len b.size.elem / 2) + 2 ^ (-53 : ℤ) * len b.corner.elem) ?_ ?_
    · rw [← Fl.turnedCenter_eq]; exact hz
    · have := mul_nonneg (add_nonneg hE (by positivity : (0 : ℝ) ≤ 2 ^ (-51 : ℤ))) hS
      refine add_le_add_left ?_ _
      rw [← mul_div_assoc]
      exact half_le_self this

/-- C141, turning a rotated box by a matrix that stands for the rotation `S`: the sizes stay, the new orientation stands for the product of the rotations, and the exact corners
of the box that comes out lie next to the exact corners turned by `S` about the point, corner or centre asked for. -/
theorem C141_rotbox_rotate (r : Rounding 53) (b : RBox n) (m : RotMat n) (R S : Matrix (Fin n) (Fin n) ℝ) (E F : ℝ) (hn : n < 2 ^ 52) (hR : Rᵀ * R = 1) (hS : Sᵀ * S = 1)
    (h0 : 2 * n * (n + 1) * 2 ^ (-52 : ℤ) ≤ E) (h1 : E ≤ 1 / 4) (hb : Stands b.orient.elem R (E - 2 * n * (n + 1) * 2 ^ (-52 : ℤ)))
    (f0 : 2 * n * (n + 1) * 2 ^ (-52 : ℤ) ≤ F) (f1 : F ≤ 1 / 4) (hm : Stands m.elem S (F - 2 * n * (n + 1) * 2 ^ (-52 : ℤ))) :
    (∀ p, (Fl.rbRotate r b m p).size = b.size ∧ Stands (Fl.rbRotate r b m p).orient.elem (R * S) (E + F + E * F) ∧
      ∀ j, len (turnedCorner (Fl.rbRotate r b m p).corner.elem b.size.elem (R * S) j - (p.elem + (turnedCorner b.corner.elem b.size.elem R j - p.elem) ᵥ* S)) ≤
        (2 * F + 3 * 2 ^ (-53 : ℤ)) * eucl b.corner.elem p.elem + 2 ^ (-53 : ℤ) * len p.elem) ∧
    (∀ i, 2 ^ n ≤ i → Fl.rbRotateCorner r b m i = none) ∧
    (∀ i < 2 ^ n, ∀ g d, g = turnedCorner b.corner.elem b.size.elem R i → d = (E + 2 ^ (-51 : ℤ)) * len b.size.elem + 2 ^ (-53 : ℤ) * len b.corner.elem →
      ∃ b', Fl.rbRotateCorner r b m i = some b' ∧ b'.size = b.size ∧ Stands b'.orient.elem (R * S) (E + F + E * F) ∧
      ∀ j, len (turnedCorner b'.corner.elem b.size.elem (R * S) j - (g + (turnedCorner b.corner.elem b.size.elem R j - g) ᵥ* S)) ≤
        (2 * F + 3 * 2 ^ (-53 : ℤ)) * (eucl b.corner.elem g + d) + 2 ^ (-53 : ℤ) * (len g + d) + 2 * d) ∧
    (∀ g d, g = turnedCenter b.corner.elem b.size.elem R → d = (E + 2 ^ (-51 : ℤ)) * (len b.size.elem / 2) + 2 ^ (-53 : ℤ) * len b.corner.elem →
      (Fl.rbRotateCenter r b m).size = b.size ∧ Stands (Fl.rbRotateCenter r b m).orient.elem (R * S) (E + F + E * F) ∧
      ∀ j, len (turnedCorner (Fl.rbRotateCenter r b m).corner.elem b.size.elem (R * S) j - (g + (turnedCorner b.corner.elem b.size.elem R j - g) ᵥ* S)) ≤
        (2 * F + 3 * 2 ^ (-53 : ℤ)) * (eucl b.corner.elem g + d) + 2 ^ (-53 : ℤ) * (len g + d) + 2 * d) := by
  have hκ : (0 : ℝ) ≤ 2 * n * (n + 1) * 2 ^ (-52 : ℤ) := by positivity
  have hE : 0 ≤ E := hκ.trans h0
  have hF : 0 ≤ F := hκ.trans f0
  have hT : 0 ≤ 2 * F + 3 * 2 ^ (-53 : ℤ) := by positivity
  have ht : (0 : ℝ) ≤ 2 ^ (-53 : ℤ) := by positivity
  have key := fun p => C125_about r m S F hn hS f0 f1 hm b.corner p
  have ho : Stands (Fl.prod r b.orient m).elem (R * S) (E + F + E * F) := by
    have := (C124_product r b.orient m R S _ _ hn (sub_nonneg.2 h0) (sub_nonneg.2 f0) ((sub_le_self E hκ).trans h1) ((sub_le_self F hκ).trans f1) hR hS hb hm).1
    intro v
    refine (this v).trans (mul_le_mul_of_nonneg_right ?_ (len_nonneg v))
    generalize 2 * (n : ℝ) * (n + 1) * 2 ^ (-52 : ℤ) = κ at *
    have : (E - κ) * (F - κ) ≤ E * F := mul_le_mul (by linarith) (by linarith) (by linarith) hE
    linarith
  have hc : ∀ (c x : Fin n → ℝ) j, turnedCorner c b.size.elem (R * S) j - (x + (turnedCorner b.corner.elem b.size.elem R j - x) ᵥ* S) = c - (x + (b.corner.elem - x) ᵥ* S) := by
    intro c x j
    rw [Fl.turnedCorner_eq, Fl.turnedCorner_eq, ← vecMul_vecMul]
    generalize (fun k : Fin n => if j.testBit k then b.size.elem k else 0) ᵥ* R = w
    rw [show b.corner.elem + w - x = (b.corner.elem - x) + w by abel, add_vecMul]
    abel
  obtain ⟨-, hcr, hcc⟩ := C135_corner r b R E hn hR h0 h1 hb
  simp only [hc, eucl_eq_len]
  refine ⟨fun p => ⟨rfl, ho, fun _ => key p⟩, fun i hi => ?_, fun i hi g d hg hd => ?_, fun g d hg hd => ⟨rfl, ho, fun _ => ?_⟩⟩
  · unfold Fl.rbRotateCorner Fl.rbCorner; rw [if_neg (by omega)]; rfl
  · obtain ⟨z, hz1, hz2⟩ := hcr i hi
    refine ⟨Fl.rbRotate r b m z, by unfold Fl.rbRotateCorner; rw [hz1]; rfl, rfl, ho, fun _ => ?_⟩
    have hz2 : len (z.elem - g) ≤ d := by rw [hg, hd]; exact hz2
    exact Fl.about_near hS hT ht hz2 (key z)
  · have hcc : len ((Fl.rbCenter r b).elem - g) ≤ d := by rw [hg, hd]; exact hcc
    exact Fl.about_near hS hT ht hcc (key _)

end WFMath
