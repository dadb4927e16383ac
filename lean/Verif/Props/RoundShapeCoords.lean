/- Property theorems C141, continued: segments turned by quaternions, and shapes taken to other frames and back, in floating point arithmetic. -/
import Verif.Props.RoundShapeMove

namespace WFMath
open Spec Matrix Rounding
open scoped Quaternion
variable {n : Nat}

/-- C141, turning by a quaternion that stands for the unit quaternion `u`: the ends of a segment and the centre of a ball come out next to the exact rotation about `p`; about
one of its ends, that end stays exactly; about its centre, the ends come out next to the exact rotation about the exact centre `g`. -/
theorem C141_quaternion (r : Rounding 53) (q : Quat) (u : ℍ[ℝ]) (δ T : ℝ) (hu : ‖u‖ = 1) (hq : ‖toH q - u‖ ≤ δ) (hδ : δ ≤ 1 / 100)
    (hT : T = 2 * (13 * δ + 20 * epsilon) + 3 * 2 ^ (-53 : ℤ)) :
    (∀ (s : Seg 3) (p : Pt 3) (j : Nat), len (((Fl.segRotateQ r s q p).getCorner j).elem - (p.elem + act u ((s.getCorner j).elem - p.elem))) ≤
      T * eucl (s.getCorner j).elem p.elem + 2 ^ (-53 : ℤ) * len p.elem) ∧
    (∀ (b : Ball 3) (p : Pt 3), (Fl.ballRotateQ r b q p).radius = b.radius ∧
      len ((Fl.ballRotateQ r b q p).center.elem - (p.elem + act u (b.center.elem - p.elem))) ≤ T * eucl b.center.elem p.elem + 2 ^ (-53 : ℤ) * len p.elem) ∧
    (∀ s : Seg 3, ∃ a b, Fl.segRotateCornerQ r s q 0 = some ⟨s.p1, a⟩ ∧ Fl.segRotateCornerQ r s q 1 = some ⟨b, s.p2⟩ ∧
      len (a.elem - (s.p1.elem + act u (s.p2.elem - s.p1.elem))) ≤ T * eucl s.p2.elem s.p1.elem + 2 ^ (-53 : ℤ) * len s.p1.elem ∧
      len (b.elem - (s.p2.elem + act u (s.p1.elem - s.p2.elem))) ≤ T * eucl s.p1.elem s.p2.elem + 2 ^ (-53 : ℤ) * len s.p2.elem ∧
      ∀ k, 1 < k → Fl.segRotateCornerQ r s q k = none) ∧
    (∀ (s : Seg 3) (g : Fin 3 → ℝ) (d : ℝ), (∀ i, g i = (s.p1.elem i + s.p2.elem i) / 2) → d = 2 ^ (-52 : ℤ) * (len s.p1.elem + len s.p2.elem) →
      ∀ j, len (((Fl.segRotateCenterQ r s q).getCorner j).elem - (g + act u ((s.getCorner j).elem - g))) ≤
        T * (eucl (s.getCorner j).elem g + d) + 2 ^ (-53 : ℤ) * (len g + d) + 2 * d) := by
  have he := epsilon_pos
  have δ0 := (norm_nonneg _).trans hq
  have hT0 : 0 ≤ T := by rw [hT]; positivity
  have ht : (0 : ℝ) ≤ 2 ^ (-53 : ℤ) := by positivity
  have key := fun x p => (C125_about_quaternion r q u δ hu hq hδ x p).1
  rw [← hT] at key
  have hu' := normSq_eq_one.2 hu
  have dA : ∀ a b, len (act u a - act u b) = len (a - b) := fun a b => by rw [← act_sub hu', len_act hu']
  simp only [eucl_eq_len]
  refine ⟨fun s p j => ?_, fun b p => ⟨rfl, key _ _⟩, fun s => ⟨_, _, rfl, rfl, key _ _, key _ _, fun k hk => if_neg (by omega)⟩, fun s g d hg hd j => ?_⟩
  · unfold Seg.getCorner
    split <;> exact key _ _
  · have hz : len ((Fl.segCenter r s).elem - g) ≤ d := by rw [show g = _ from funext hg, hd]; exact Fl.seg_center r s
    unfold Seg.getCorner
    split <;> exact Fl.about_near' dA hT0 ht hz (key _ _)

/-- C141, coordinates: taken to the parent frame with origin `o` and a matrix that stands for the rotation `R`, the ends of a segment, the corners of a plane polygon and the centre of a
ball come out next to the exact coordinates, and taking them back gives them back up to rounding; the radius of a ball stays. -/
theorem C141_coords (r : Rounding 53) (m : RotMat n) (R : Matrix (Fin n) (Fin n) ℝ) (E : ℝ) (hn : n < 2 ^ 52) (hR : Rᵀ * R = 1)
    (h0 : 2 * n * (n + 1) * 2 ^ (-52 : ℤ) ≤ E) (h1 : E ≤ 1 / 4) (hm : Stands m.elem R (E - 2 * n * (n + 1) * 2 ^ (-52 : ℤ))) (o : Pt n) :
    (∀ (s : Seg n) (j : Nat),
      len (((Fl.segToParent r s o m).getCorner j).elem - (o.elem + (s.getCorner j).elem ᵥ* R)) ≤
        (2 * E + 3 * 2 ^ (-53 : ℤ)) * len (s.getCorner j).elem + 2 ^ (-53 : ℤ) * len o.elem ∧
      eucl ((Fl.segToLocal r (Fl.segToParent r s o m) o m).getCorner j).elem (s.getCorner j).elem ≤
        (3 * E + 6 * 2 ^ (-53 : ℤ)) * len (s.getCorner j).elem + 2 * 2 ^ (-53 : ℤ) * len o.elem) ∧
    (∀ (ps : Corners n), (Fl.polyToParent r ps o m).length = ps.length ∧ (Fl.polyToLocal r ps o m).length = ps.length ∧ ∀ (k : Nat) (x y z : Pt n), ps[k]? = some x →
      (Fl.polyToParent r ps o m)[k]? = some y → (Fl.polyToLocal r (Fl.polyToParent r ps o m) o m)[k]? = some z →
      len (y.elem - (o.elem + x.elem ᵥ* R)) ≤ (2 * E + 3 * 2 ^ (-53 : ℤ)) * len x.elem + 2 ^ (-53 : ℤ) * len o.elem ∧
      eucl z.elem x.elem ≤ (3 * E + 6 * 2 ^ (-53 : ℤ)) * len x.elem + 2 * 2 ^ (-53 : ℤ) * len o.elem) ∧
    (∀ b : Ball n, (Fl.ballToParent r b o m).radius = b.radius ∧ (Fl.ballToLocal r b o m).radius = b.radius ∧
      (0 ≤ b.radius → ((Fl.ballToParent r b o m).valid = true ↔ b.valid = true ∧ o.valid = true ∧ m.valid = true)) ∧
      len ((Fl.ballToParent r b o m).center.elem - (o.elem + b.center.elem ᵥ* R)) ≤ (2 * E + 3 * 2 ^ (-53 : ℤ)) * len b.center.elem + 2 ^ (-53 : ℤ) * len o.elem ∧
      eucl (Fl.ballToLocal r (Fl.ballToParent r b o m) o m).center.elem b.center.elem ≤
        (3 * E + 6 * 2 ^ (-53 : ℤ)) * len b.center.elem + 2 * 2 ^ (-53 : ℤ) * len o.elem) := by
  have key := fun x => C125_matrix r m R E hn hR h0 h1 hm x o
  simp only [eucl_eq_len]
  refine ⟨fun s j => ?_, fun ps => ⟨List.length_map _, List.length_map _, fun k x y z hx hy hz => ?_⟩, fun b => ⟨rfl, rfl, fun hb => ?_, ?_⟩⟩
  · unfold Seg.getCorner
    split <;> exact ⟨(key _).1, (key _).2.2.1⟩
  · simp only [Fl.polyToParent, Fl.polyToLocal, List.getElem?_map, hx, Option.map_some, Option.some.injEq] at hy hz
    rw [← hy, ← hz]; exact ⟨(key _).1, (key _).2.2.1⟩
  · show (if b.radius < 0 then _ else Fl.toParent r b.center o m : Pt n).valid = true ↔ _
    rw [if_neg (by linarith)]
    show (o.valid && (m.valid && (b.center.valid && true))) = true ↔ _
    simp only [Ball.valid, Bool.and_true, Bool.and_eq_true]
    tauto
  · have e : ∀ (c : Pt n) (ρ : ℝ), (Ball.mk' c ρ).center.elem = c.elem := fun c ρ => by unfold Ball.mk'; dsimp only; split <;> rfl
    have e2 : ∀ c d : Pt n, c.elem = d.elem → (Fl.toLocal r c o m).elem = (Fl.toLocal r d o m).elem := fun c d h => by
      simp only [Fl.toLocal, Fl.addVec, Fl.matVec, Fl.ptSub, h]
    unfold Fl.ballToLocal Fl.ballToParent
    rw [e, e, e2 _ (Fl.toParent r b.center o m) (e _ _)]
    exact ⟨(key _).1, (key _).2.2.1⟩

/-- C141, coordinates with a quaternion that stands for the unit quaternion `u`: the ends of a segment come out next to the exact coordinates in the frame with origin `o` and in the
frame this one is given in, and going there and back gives them back up to rounding. -/
theorem C141_quaternion_coords (r : Rounding 53) (q : Quat) (u : ℍ[ℝ]) (δ E : ℝ) (hu : ‖u‖ = 1) (hq : ‖toH q - u‖ ≤ δ) (hδ : δ ≤ 1 / 100) (hE : E = 13 * δ + 20 * epsilon)
    (o : Pt 3) (s : Seg 3) (j : Nat) :
    len (((Fl.segToParentQ r s o q).getCorner j).elem - (o.elem + act u (s.getCorner j).elem)) ≤
      (2 * E + 3 * 2 ^ (-53 : ℤ)) * len (s.getCorner j).elem + 2 ^ (-53 : ℤ) * len o.elem ∧
    len (((Fl.segToLocalQ r s o q).getCorner j).elem - act u⁻¹ ((s.getCorner j).elem - o.elem)) ≤ (2 * E + 3 * 2 ^ (-53 : ℤ)) * eucl (s.getCorner j).elem o.elem ∧
    eucl ((Fl.segToLocalQ r (Fl.segToParentQ r s o q) o q).getCorner j).elem (s.getCorner j).elem ≤
      (3 * E + 6 * 2 ^ (-53 : ℤ)) * len (s.getCorner j).elem + 2 * 2 ^ (-53 : ℤ) * len o.elem ∧
    eucl ((Fl.segToParentQ r (Fl.segToLocalQ r s o q) o q).getCorner j).elem (s.getCorner j).elem ≤
      (6 * E + 8 * 2 ^ (-53 : ℤ)) * eucl (s.getCorner j).elem o.elem + 2 ^ (-53 : ℤ) * len o.elem := by
  have key := fun x => C125_quaternion r q u δ hu hq hδ x o
  rw [← hE] at key
  simp only [eucl_eq_len]
  unfold Seg.getCorner
  split <;> exact key _

/-- C141, axis-aligned boxes as frames: for a point whose coordinates are doubles every coordinate in the frame of the box, and in the frame the box is given in, is the exact one
rounded once, and going to the local frame and back gives the point up to half a unit in the last place of its offset from the corner and of itself. -/
theorem C141_box_frame (r : Rounding 53) (c : Box n) (x : Pt n) (hx : ∀ i, IsFl 53 (x.elem i)) (i : Fin n) :
    (Fl.toParentBox r x c).elem i = r (c.low.elem i + x.elem i) ∧ (Fl.toLocalBox r x c).elem i = r (x.elem i - c.low.elem i) ∧
    |(Fl.toParentBox r (Fl.toLocalBox r x c) c).elem i - x.elem i| ≤ 2 ^ (-52 : ℤ) * |x.elem i - c.low.elem i| + 2 ^ (-53 : ℤ) * |x.elem i| := by
  have h1 : (Fl.toParentBox r x c).elem i = r (c.low.elem i + x.elem i) := by
    show r (c.low.elem i + r (x.elem i - 0)) = _
    rw [sub_zero, r.of_fl (hx i)]
  have h2 : (Fl.toLocalBox r x c).elem i = r (x.elem i - c.low.elem i) := by
    show r (0 + r (x.elem i - c.low.elem i)) = _
    rw [zero_add, r.of_fl (r.isFl _)]
  refine ⟨h1, h2, ?_⟩
  have h3 : (Fl.toParentBox r (Fl.toLocalBox r x c) c).elem i = r (c.low.elem i + r (x.elem i - c.low.elem i)) := by
    show r (c.low.elem i + r ((Fl.toLocalBox r x c).elem i - 0)) = _
    rw [sub_zero, h2, r.of_fl (r.isFl _)]
  rw [h3]
  have := Fl.add_rnd r (c.low.elem i) (x.elem i - c.low.elem i)
  rw [add_sub_cancel, ← Fl.two_u, Fl.u53] at this
  linarith

end WFMath
