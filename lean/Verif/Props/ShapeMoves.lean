/- Property theorem C69: moving shapes. -/
import Verif.Props.RotBox
import Verif.Props.Corners

namespace WFMath
open Spec Matrix Gauss
variable {n : Nat}

/-- C69, axis boxes: corner `i` goes to `p`, every other corner and the centre move by the same vector. -/
theorem C69_box (b : Box n) (p : Pt n) (i j : Nat) :
    ((b.moveCornerTo p i).getCorner i).elem = p.elem ∧
    ((b.moveCornerTo p i).getCorner j).elem = (b.getCorner j).elem + (p.elem - (b.getCorner i).elem) ∧
    (b.moveCenterTo p).getCenter.elem = p.elem ∧
    ((b.moveCenterTo p).getCorner j).elem = (b.getCorner j).elem + (p.elem - b.getCenter.elem) := by
  have h : ∀ (v : Vec n) (k : Nat), ((b.shift v).getCorner k).elem = (b.getCorner k).elem + v.elem := by
    intro v k
    funext m
    simp only [Box.shift, Box.getCorner, Pt.addVec_elem, Pi.add_apply]
    split_ifs
    · rfl
    · rfl
    · show (if _ then _ else _) = (if _ then _ else _) + _
      split_ifs <;> rfl
  have hc : ∀ v : Vec n, (b.shift v).getCenter.elem = b.getCenter.elem + v.elem := by
    intro v
    funext m
    simp only [Box.shift, Box.getCenter, Pt.midpoint, Pt.addVec_elem, Pi.add_apply]
    ring
  refine ⟨?_, ?_, ?_, ?_⟩
  · rw [Box.moveCornerTo, h, Pt.sub_elem, add_sub_cancel]
  · rw [Box.moveCornerTo, h, Pt.sub_elem]
  · rw [Box.moveCenterTo, hc, Pt.sub_elem, add_sub_cancel]
  · rw [Box.moveCenterTo, h, Pt.sub_elem]

/-- C69, axis boxes: a shift and its opposite cancel, and a valid move keeps a valid box valid. -/
theorem C69_box_shift (b : Box n) (v : Vec n) (hv : v.valid = true) : (b.shift v).shift (-v) = b ∧ (b.shift v).valid = b.valid := by
  refine ⟨?_, ?_⟩
  · apply Box.ext <;> apply Pt.ext
    · funext i; show b.low.elem i + v.elem i + -v.elem i = _; ring
    · show ((b.low.valid && v.valid) && v.valid) = _; simp [hv]
    · funext i; show b.high.elem i + v.elem i + -v.elem i = _; ring
    · show ((b.high.valid && v.valid) && v.valid) = _; simp [hv]
  · simp [Box.shift, Box.valid, hv]

/-- C69, balls: the centre goes to `p`, the radius stays; a shift and its opposite cancel. -/
theorem C69_ball (b : Ball n) (p : Pt n) (v : Vec n) :
    (b.moveCenterTo p).center = p ∧ (b.moveCenterTo p).radius = b.radius ∧
    (b.shift v).center.elem = b.center.elem + v.elem ∧ (b.shift v).radius = b.radius ∧
    (v.valid = true → (b.shift v).shift (-v) = b) := by
  refine ⟨rfl, rfl, rfl, rfl, fun hv => ?_⟩
  apply Ball.ext
  · apply Pt.ext
    · funext i; show b.center.elem i + v.elem i + -v.elem i = _; ring
    · show ((b.center.valid && v.valid) && v.valid) = _; simp [hv]
  · rfl

/-- C69, segments: the named end goes to `p` and the other end moves by the same vector; likewise for the centre. -/
theorem C69_segment (s : Seg n) (p : Pt n) (i j : Nat) (hj : j < 2) :
    (s.moveCornerTo p i ≠ none ↔ i < 2) ∧
    (∀ t, s.moveCornerTo p i = some t → t.getCorner i = p ∧ (t.getCorner j).elem = (s.getCorner j).elem + (p.elem - (s.getCorner i).elem)) ∧
    (s.moveCenterTo p).getCenter.elem = p.elem ∧
    ((s.moveCenterTo p).getCorner j).elem = (s.getCorner j).elem + (p.elem - s.getCenter.elem) := by
  refine ⟨?_, ?_, ?_, ?_⟩
  · unfold Seg.moveCornerTo; split_ifs <;> simp <;> omega
  · intro t ht
    unfold Seg.moveCornerTo at ht
    split_ifs at ht with h0 h1
    · rw [← Option.some.inj ht]
      subst h1
      refine ⟨rfl, ?_⟩
      unfold Seg.getCorner
      split_ifs with h2 h3 h3
      · exact absurd rfl h3
      · simp only [Pt.addVec_elem, Pt.sub_elem]; abel
      · exact absurd rfl h3
      · simp only; abel
    · have hi1 : i = 1 := by omega
      rw [← Option.some.inj ht]
      subst hi1
      refine ⟨rfl, ?_⟩
      unfold Seg.getCorner
      split_ifs with h2
      · simp only; abel
      · simp only [Pt.subVec_elem, Pt.sub_elem]; abel
  · funext k
    simp only [Seg.moveCenterTo, Seg.shift, Seg.getCenter, Pt.midpoint, Pt.addVec_elem, Pt.sub_elem, Pi.add_apply, Pi.sub_apply]
    ring
  · unfold Seg.moveCenterTo Seg.shift Seg.getCorner
    split_ifs <;> rfl

theorem C69_segment_shift (s : Seg n) (v : Vec n) (hv : v.valid = true) : (s.shift v).shift (-v) = s ∧ (s.shift v).valid = s.valid := by
  refine ⟨?_, by simp [Seg.shift, Seg.valid, hv]⟩
  apply Seg.ext <;> apply Pt.ext
  · funext i; show s.p1.elem i + v.elem i + -v.elem i = _; ring
  · show ((s.p1.valid && v.valid) && v.valid) = _; simp [hv]
  · funext i; show s.p2.elem i + v.elem i + -v.elem i = _; ring
  · show ((s.p2.valid && v.valid) && v.valid) = _; simp [hv]

theorem rbox_shift_corner (r : RBox n) (v : Vec n) (k : Nat) :
    ((r.shift v).getCorner k).map (·.elem) = (r.getCorner k).map fun c => c.elem + v.elem := by
  unfold RBox.getCorner
  split_ifs
  · rfl
  · simp only [RBox.shift, Option.map_some, Pt.addVec_elem]
    congr 1; abel
  · rfl

/-- C69, rotated boxes. -/
theorem C69_rotbox (r : RBox n) (p : Pt n) (i : Nat) :
    (r.moveCornerTo p i ≠ none ↔ i < 2 ^ n) ∧
    (∀ t c, r.moveCornerTo p i = some t → r.getCorner i = some c →
      (t.getCorner i).map (·.elem) = some p.elem ∧
      ∀ j, (t.getCorner j).map (·.elem) = (r.getCorner j).map fun x => x.elem + (p.elem - c.elem)) ∧
    (r.moveCenterTo p).getCenter.elem = p.elem ∧
    (∀ j, ((r.moveCenterTo p).getCorner j).map (·.elem) = (r.getCorner j).map fun x => x.elem + (p.elem - r.getCenter.elem)) := by
  refine ⟨?_, ?_, ?_, fun j => rbox_shift_corner r _ j⟩
  · rw [← (C64_corners r i).1]
    unfold RBox.moveCornerTo
    simp
  · intro t c ht hc
    unfold RBox.moveCornerTo at ht
    rw [hc] at ht
    rw [← Option.some.inj ht]
    refine ⟨?_, fun j => rbox_shift_corner r _ j⟩
    rw [rbox_shift_corner, hc]
    simp
  · unfold RBox.moveCenterTo RBox.shift RBox.getCenter
    simp only [Pt.addVec_elem, Pt.sub_elem]; abel

theorem C69_rotbox_shift (r : RBox n) (v : Vec n) (hv : v.valid = true) : (r.shift v).shift (-v) = r ∧ (r.shift v).valid = r.valid := by
  refine ⟨?_, by simp [RBox.shift, RBox.valid, hv]⟩
  apply RBox.ext
  · apply Pt.ext
    · funext i; show r.corner.elem i + v.elem i + -v.elem i = _; ring
    · show ((r.corner.valid && v.valid) && v.valid) = _; simp [hv]
  · rfl
  · rfl

/-- C69, lines and plane polygons. -/
theorem C69_corners (ps : Corners n) (p : Pt n) (i : Nat) :
    (ps.moveCornerTo p i ≠ none ↔ i < ps.length) ∧
    (∀ qs c, ps.moveCornerTo p i = some qs → ps.getCorner i = some c →
      (qs.getCorner i).map (·.elem) = some p.elem ∧ qs.length = ps.length ∧
      ∀ j, (qs.getCorner j).map (·.elem) = (ps.getCorner j).map fun x => x.elem + (p.elem - c.elem)) ∧
    (ps ≠ [] → (ps.moveCenterTo p).getCenter.elem = p.elem) ∧
    (∀ j, ((ps.moveCenterTo p).getCorner j).map (·.elem) = (ps.getCorner j).map fun x => x.elem + (p.elem - ps.getCenter.elem)) := by
  have hs : ∀ (v : Vec n) j, ((ps.shift v).getCorner j).map (·.elem) = (ps.getCorner j).map fun x => x.elem + v.elem := by
    intro v j
    simp only [Corners.shift, Corners.getCorner, List.getElem?_map, Option.map_map]
    rfl
  refine ⟨?_, ?_, ?_, fun j => hs _ j⟩
  · unfold Corners.moveCornerTo Corners.getCorner; simp
  · intro qs c h hc
    unfold Corners.moveCornerTo at h
    rw [hc] at h
    rw [← Option.some.inj h]
    refine ⟨?_, by simp [Corners.shift], fun j => hs _ j⟩
    rw [hs, hc]; simp
  · intro hne
    unfold Corners.moveCenterTo Corners.shift Corners.getCenter
    have := (C30_translate ps hne (p.sub (Pt.barycenter ps)))
    rw [this]
    simp

theorem C69_corners_shift (ps : Corners n) (v : Vec n) (hv : v.valid = true) : (ps.shift v).shift (-v) = ps := by
  unfold Corners.shift
  rw [List.map_map]
  conv_rhs => rw [← List.map_id ps]
  refine List.map_congr_left fun p _ => ?_
  apply Pt.ext
  · funext i; show p.elem i + v.elem i + -v.elem i = _; simp
  · show ((p.valid && v.valid) && v.valid) = _; simp [hv]

/-- Shifting the orientation shifts every converted point. -/
theorem convert_shift (o : Orient n) (v : Vec n) (hv : v.valid = true) (p : Pt 2) :
    (o.shift v).convert p = (o.convert p).map fun c => ⟨c.elem + v.elem, c.valid⟩ := by
  unfold Orient.shift
  cases ho : o.origin.valid
  · simp [Orient.convert, ho]
  · simp only [if_true, Orient.convert, Pt.addVec_valid, ho, hv, Bool.and_self]
    split_ifs <;> simp [Pt.addVec_elem] <;> abel

/-- C69, polygons in space: for a valid target and a valid corner. -/
theorem C69_polygon (s : Poly n) (p c : Pt n) (i : Nat) (hp : p.valid = true) (hv : c.valid = true) (hc : s.getCorner i = some c) :
    ∃ t, s.moveCornerTo p i = some t ∧ (t.getCorner i).map (·.elem) = some p.elem ∧ t.numCorners = s.numCorners ∧
      ∀ j, (t.getCorner j).map (·.elem) = (s.getCorner j).map fun x => x.elem + (p.elem - c.elem) := by
  refine ⟨_, by unfold Poly.moveCornerTo; rw [hc]; rfl, ?_⟩
  have hsv : (p.sub c).valid = true := by simp [hp, hv]
  have hs : ∀ j, ((s.shift (p.sub c)).getCorner j).map (·.elem) = (s.getCorner j).map fun x => x.elem + (p.elem - c.elem) := by
    intro j
    unfold Poly.getCorner
    show Option.map _ ((s.poly.getCorner j).bind (s.orient.shift (p.sub c)).convert) = _
    cases s.poly.getCorner j with
    | none => rfl
    | some x =>
      simp only [Option.bind_some]
      rw [convert_shift _ _ hsv, Option.map_map]
      rfl
  refine ⟨?_, rfl, hs⟩
  rw [hs, hc]; simp

/-- C69, polygons in space, the centre; and a shift and its opposite cancel. -/
theorem C69_polygon_center (s : Poly n) (p c : Pt n) (hp : p.valid = true) (hv : c.valid = true) (hc : s.getCenter = some c) :
    ∃ t, s.moveCenterTo p = some t ∧ t.getCenter.map (·.elem) = some p.elem ∧
      ∀ j, (t.getCorner j).map (·.elem) = (s.getCorner j).map fun x => x.elem + (p.elem - c.elem) := by
  refine ⟨_, by unfold Poly.moveCenterTo; rw [hc]; rfl, ?_, ?_⟩
  · have hsv : (p.sub c).valid = true := by simp [hp, hv]
    show ((s.orient.shift (p.sub c)).convert s.poly.getCenter).map (·.elem) = _
    rw [convert_shift _ _ hsv]
    have : s.orient.convert s.poly.getCenter = some c := hc
    rw [this]; simp
  · intro j
    have hsv : (p.sub c).valid = true := by simp [hp, hv]
    unfold Poly.getCorner
    show Option.map _ ((s.poly.getCorner j).bind (s.orient.shift (p.sub c)).convert) = _
    cases s.poly.getCorner j with
    | none => rfl
    | some x =>
      simp only [Option.bind_some]
      rw [convert_shift _ _ hsv, Option.map_map]
      rfl

theorem C69_polygon_shift (s : Poly n) (v : Vec n) (hv : v.valid = true) : (s.shift v).shift (-v) = s := by
  cases ho : s.orient.origin.valid
  · simp [Poly.shift, Orient.shift, ho]
  · apply Poly.ext
    · unfold Poly.shift Orient.shift
      simp only [ho, if_true, Pt.addVec_valid, hv, Bool.and_self]
      apply Orient.ext
      · apply Pt.ext
        · funext i; show s.orient.origin.elem i + v.elem i + -v.elem i = _; ring
        · show ((s.orient.origin.valid && v.valid) && v.valid) = _; simp [hv]
      · rfl
      · rfl
    · rfl

/-- A triangle in the plane, its second corner moved to (5, 5). -/
example : ∃ qs, Corners.moveCornerTo [⟨![0, 0], true⟩, ⟨![1, 0], true⟩, ⟨![0, 1], true⟩] (⟨![5, 5], true⟩ : Pt 2) 1 = some qs ∧
    (qs.getCorner 2).map (·.elem) = some ![4, 6] := by
  obtain ⟨h1, h2, -, -⟩ := C69_corners [⟨![0, 0], true⟩, ⟨![1, 0], true⟩, ⟨![0, 1], true⟩] (⟨![5, 5], true⟩ : Pt 2) 1
  obtain ⟨qs, hq⟩ := Option.ne_none_iff_exists'.1 (h1.2 (by simp))
  refine ⟨qs, hq, ?_⟩
  rw [(h2 qs _ hq rfl).2.2 2]
  simp [Corners.getCorner]
  norm_num

end WFMath
