/- Property theorems C73 and C90: removing and moving corners of polygons in space. -/
import Verif.Lemmas.PolyReduce
import Verif.Props.PolyAdd
import Verif.Props.ShapeCoords

namespace WFMath
open Spec Matrix
variable {n : Nat}

/-- The plane and the corners fit together. -/
structure PolyOk (s : Poly n) : Prop where
  ok : OrientOk s.orient
  placed : ∀ x ∈ s.poly, Placed s.orient x

theorem Placed.mono {o o' : Orient n} (hv : o'.origin.valid = true) (h0 : o.ax0.valid = true → o'.ax0.valid = true)
    (h1 : o.ax1.valid = true → o'.ax1.valid = true) {x : Pt 2} (h : Placed o x) : Placed o' x :=
  ⟨hv, h.2.1.imp h0 id, h.2.2.imp h1 id⟩

/-! ### Histories of edits -/

/-- A history of operations on a polygon, with the number of corners it should have. The index and the corners need not be in
range or in the plane: then the operation does not return, or returns `false`. `dbg`: assertions are compiled in. -/
inductive Edited (dbg : Bool) : Poly n → Nat → Prop
  | empty : Edited dbg Poly.empty 0
  | add {s t k} (i : Nat) (p : Pt n) (eps : ℝ) : 0 ≤ eps → Edited dbg s k → s.addCorner i p eps = some (true, t) → Edited dbg t (k + 1)
  | addFail {s t k} (i : Nat) (p : Pt n) (eps : ℝ) : Edited dbg s k → s.addCorner i p eps = some (false, t) → Edited dbg t k
  | remove {s t k} (i : Nat) : Edited dbg s k → s.removeCorner dbg i = some t → Edited dbg t (k - 1)
  | move {s t k} (i : Nat) (p : Pt n) (eps : ℝ) (b : Bool) : 0 ≤ eps → Edited dbg s k → s.moveCorner dbg i p eps = some (b, t) → Edited dbg t k
  | shift {s k} (v : Vec n) : v.valid = true → Edited dbg s k → Edited dbg (s.shift v) k
  | rotatePoint {s k} (m : RotMat n) (p : Pt n) : IsRotation m → m.valid = true → p.valid = true → Edited dbg s k →
      Edited dbg (s.rotatePoint m p) k
  | rotateCorner {s t k} (m : RotMat n) (i : Nat) : IsRotation m → m.valid = true → Edited dbg s k → s.rotateCorner m i = some t → Edited dbg t k
  | rotateCenter {s t k} (m : RotMat n) : IsRotation m → m.valid = true → Edited dbg s k → s.rotateCenter m = some t → Edited dbg t k
  | toParent {s k} (o : Pt n) (m : RotMat n) : IsRotation m → m.valid = true → o.valid = true → Edited dbg s k → Edited dbg (s.toParent o m) k
  | toLocal {s k} (o : Pt n) (m : RotMat n) : IsRotation m → m.valid = true → o.valid = true → Edited dbg s k → Edited dbg (s.toLocal o m) k

theorem polyOk_add {s t : Poly n} {i : Nat} {p : Pt n} {eps : ℝ} (he : 0 ≤ eps) (hs : PolyOk s) (h : s.addCorner i p eps = some (true, t)) :
    PolyOk t ∧ t.poly.length = s.poly.length + 1 := by
  obtain ⟨o, p2, hx, hi, rfl⟩ := addCorner_true h
  obtain ⟨k1, k2, k3, k4, k5, k6, k7, k8, k9, k10⟩ := expand_spec he hs.ok hx
  refine ⟨⟨k1, ?_⟩, ?_⟩
  · intro x hx
    have hm : x ∈ s.poly ∨ x = p2 := by
      have : x ∈ s.poly.take i ++ p2 :: s.poly.drop i := hx
      rw [List.mem_append, List.mem_cons] at this
      rcases this with h | rfl | h
      · exact Or.inl (List.mem_of_mem_take h)
      · exact Or.inr rfl
      · exact Or.inl (List.mem_of_mem_drop h)
    rcases hm with hm | rfl
    · have := hs.placed x hm
      exact this.mono k2 (fun h => by rw [k5 h]; exact h) (fun h => by rw [k6 h]; exact h)
    · exact ⟨k2, k8, k9⟩
  · show (s.poly.take i ++ p2 :: s.poly.drop i).length = _
    rw [List.length_append, List.length_cons, List.length_take, List.length_drop]
    omega

theorem orientOk_invalid (o : Orient n) : OrientOk (⟨⟨o.origin.elem, false⟩, ⟨o.ax0.elem, false⟩, ⟨o.ax1.elem, false⟩⟩ : Orient n) := by
  constructor <;> intro hc <;> simp at hc

theorem mem_kept {ps kept : Corners 2} {i : Nat} (h : ps.removeCorner i = some kept) {x : Pt 2} (hx : x ∈ kept) : x ∈ ps := by
  unfold Corners.removeCorner at h
  split_ifs at h
  rw [← Option.some.inj h] at hx
  rcases List.mem_append.1 hx with h | h
  · exact List.mem_of_mem_take h
  · exact List.mem_of_mem_drop h

theorem kept_length {ps kept : Corners 2} {i : Nat} (h : ps.removeCorner i = some kept) : kept.length = ps.length - 1 ∧ i < ps.length := by
  unfold Corners.removeCorner at h
  split_ifs at h with hi
  rw [← Option.some.inj h, List.length_append, List.length_take, List.length_drop]
  omega

theorem kept_get {ps kept : Corners 2} {i : Nat} (h : ps.removeCorner i = some kept) (j : Nat) :
    kept[j]? = if j < i then ps[j]? else ps[j + 1]? := by
  unfold Corners.removeCorner at h
  split_ifs at h with hi
  rw [← Option.some.inj h]
  have hl : (ps.take i).length = i := by rw [List.length_take]; omega
  split_ifs with hj
  · rw [List.getElem?_append_left (by rw [hl]; exact hj), List.getElem?_take_of_lt hj]
  · rw [List.getElem?_append_right (by rw [hl]; omega), hl, List.getElem?_drop]
    congr 1; omega

theorem polyOk_remove {dbg : Bool} {s t : Poly n} {i : Nat} (hs : PolyOk s) (h : s.removeCorner dbg i = some t) :
    PolyOk t ∧ t.poly.length = s.poly.length - 1 := by
  unfold Poly.removeCorner at h
  obtain ⟨kept, hk, h⟩ := Option.bind_eq_some_iff.1 h
  obtain ⟨⟨o, r⟩, hr, h⟩ := Option.map_eq_some_iff.1 h
  subst h
  refine ⟨?_, by rw [List.length_map]; exact (kept_length hk).1⟩
  cases hkc : kept with
  | nil =>
    subst hkc
    simp only [Orient.reduce, Option.some.injEq, Prod.mk.injEq] at hr
    obtain ⟨rfl, rfl⟩ := hr
    exact ⟨orientOk_invalid _, by simp⟩
  | cons f ps =>
    subst hkc
    obtain ⟨a, b, -, -⟩ := reduce_spec hs.ok (fun x hx => hs.placed x (mem_kept hk hx)) hr
    refine ⟨a, fun x hx => ?_⟩
    obtain ⟨y, hy, rfl⟩ := List.mem_map.1 hx
    exact b y hy

theorem polyOk_move {dbg : Bool} {s t : Poly n} {i : Nat} {p : Pt n} {eps : ℝ} {b : Bool} (he : 0 ≤ eps) (hs : PolyOk s)
    (h : s.moveCorner dbg i p eps = some (b, t)) : PolyOk t ∧ t.poly.length = s.poly.length := by
  unfold Poly.moveCorner at h
  obtain ⟨kept, hk, h⟩ := Option.bind_eq_some_iff.1 h
  obtain ⟨⟨o, r⟩, hr, h⟩ := Option.bind_eq_some_iff.1 h
  rcases hx : o.expand p eps with ⟨b', o', p2⟩
  simp only [hx] at h
  cases b'
  · simp only [Bool.false_eq_true, if_false, Option.some.injEq, Prod.mk.injEq] at h
    rw [← h.2]; exact ⟨hs, rfl⟩
  simp only [if_true, Option.some.injEq, Prod.mk.injEq] at h
  obtain ⟨-, rfl⟩ := h
  refine ⟨?_, by simp⟩
  have hkept : ∀ (j : Nat) (x : Pt 2), ((s.poly.map r.point).set i p2)[j]? = some x → x = p2 ∨ ∃ y ∈ kept, x = r.point y := by
    intro j x hj
    rw [List.getElem?_set] at hj
    split_ifs at hj with h1 h2
    · exact Or.inl (Option.some.inj hj).symm
    · right
      rw [List.getElem?_map] at hj
      obtain ⟨y, hy, rfl⟩ := Option.map_eq_some_iff.1 hj
      refine ⟨y, ?_, rfl⟩
      rcases lt_or_gt_of_ne h1 with h | h
      · have := kept_get hk (j - 1)
        rw [if_neg (by omega), show j - 1 + 1 = j by omega, hy] at this
        exact List.mem_of_getElem? this
      · have := kept_get hk j
        rw [if_pos h, hy] at this
        exact List.mem_of_getElem? this
  have hok' : OrientOk o ∧ ∀ y ∈ kept, Placed o (r.point y) := by
    cases hkc : kept with
    | nil =>
      subst hkc
      simp only [Orient.reduce, Option.some.injEq, Prod.mk.injEq] at hr
      obtain ⟨rfl, rfl⟩ := hr
      exact ⟨orientOk_invalid _, by simp⟩
    | cons f ps =>
      subst hkc
      obtain ⟨a, b, -, -⟩ := reduce_spec hs.ok (fun x hx => hs.placed x (mem_kept hk hx)) hr
      exact ⟨a, b⟩
  obtain ⟨k1, k2, k3, k4, k5, k6, k7, k8, k9, k10⟩ := expand_spec he hok'.1 hx
  refine ⟨k1, fun x hx => ?_⟩
  obtain ⟨j, hj⟩ := List.getElem?_of_mem hx
  rcases hkept j x hj with rfl | ⟨y, hy, rfl⟩
  · exact ⟨k2, k8, k9⟩
  · exact (hok'.2 y hy).mono k2 (fun h => by rw [k5 h]; exact h) (fun h => by rw [k6 h]; exact h)

theorem orientOk_of_axes {o o' : Orient n} (h : OrientOk o) (hv : o.origin.valid = true → o'.origin.valid = true)
    (h0 : o'.ax0.valid = o.ax0.valid) (h1 : o'.ax1.valid = o.ax1.valid)
    (hd : o'.ax0.elem ⬝ᵥ o'.ax0.elem = o.ax0.elem ⬝ᵥ o.ax0.elem ∧ (o.ax1.valid = true → o'.ax1.elem ⬝ᵥ o'.ax1.elem = o.ax1.elem ⬝ᵥ o.ax1.elem ∧
      o'.ax0.elem ⬝ᵥ o'.ax1.elem = o.ax0.elem ⬝ᵥ o.ax1.elem)) : OrientOk o' :=
  ⟨fun h' => hv (h.first (h0 ▸ h')), fun h' => by rw [h0]; exact h.second (h1 ▸ h'), fun h' => by rw [hd.1]; exact h.unit0 (h0 ▸ h'),
    fun h' => by rw [(hd.2 (h1 ▸ h')).1]; exact h.unit1 (h1 ▸ h'), fun h' => by rw [(hd.2 (h1 ▸ h')).2]; exact h.perp (h1 ▸ h')⟩

theorem vecMul_dot {m : RotMat n} (h : IsRotation m) (u v : Fin n → ℝ) : (u ᵥ* m.elem) ⬝ᵥ (v ᵥ* m.elem) = u ⬝ᵥ v := by
  rw [← dotProduct_mulVec, ← mulVec_transpose, mulVec_mulVec, h.orth, one_mulVec]

theorem mulVec_dot {m : RotMat n} (h : IsRotation m) (u v : Fin n → ℝ) : (m.elem *ᵥ u) ⬝ᵥ (m.elem *ᵥ v) = u ⬝ᵥ v := by
  rw [dotProduct_mulVec, ← mulVec_transpose, mulVec_mulVec, h.orth', one_mulVec]

theorem polyOk_of {s : Poly n} {o' : Orient n} (hs : PolyOk s) (hv : s.orient.origin.valid = true → o'.origin.valid = true)
    (h0 : o'.ax0.valid = s.orient.ax0.valid) (h1 : o'.ax1.valid = s.orient.ax1.valid)
    (hd : o'.ax0.elem ⬝ᵥ o'.ax0.elem = s.orient.ax0.elem ⬝ᵥ s.orient.ax0.elem ∧ (s.orient.ax1.valid = true →
      o'.ax1.elem ⬝ᵥ o'.ax1.elem = s.orient.ax1.elem ⬝ᵥ s.orient.ax1.elem ∧
      o'.ax0.elem ⬝ᵥ o'.ax1.elem = s.orient.ax0.elem ⬝ᵥ s.orient.ax1.elem)) : PolyOk { s with orient := o' } :=
  ⟨orientOk_of_axes hs.ok hv h0 h1 hd, fun x hx => (hs.placed x hx).mono (hv (hs.placed x hx).1) (fun h => by rw [h0]; exact h)
    (fun h => by rw [h1]; exact h)⟩

theorem polyOk_rotate2 {s : Poly n} {o' : Orient n} {m : RotMat n} {p : Pt 2} (hs : PolyOk s) (hm : IsRotation m) (hmv : m.valid = true)
    (h : s.orient.rotate2 m p = some o') : PolyOk { s with orient := o' } := by
  obtain ⟨v0, v1, v2⟩ := rotate2_valid _ _ _ _ h hmv
  refine polyOk_of hs (fun h => by rw [v0]; exact h) v1 v2 ?_
  unfold Orient.rotate2 at h
  split_ifs at h with h2 h3 h4 h5 h6
  · rw [← Option.some.inj h]; exact ⟨rfl, fun _ => ⟨rfl, rfl⟩⟩
  · rw [← Option.some.inj h]
    refine ⟨?_, fun _ => ⟨?_, ?_⟩⟩
    · show (s.orient.ax0.rotateM m).elem ⬝ᵥ (s.orient.ax0.rotateM m).elem = _
      rw [RotMat.rotateM_elem, vecMul_dot hm]
    · show (s.orient.ax1.rotateM m).elem ⬝ᵥ (s.orient.ax1.rotateM m).elem = _
      rw [RotMat.rotateM_elem, vecMul_dot hm]
    · show (s.orient.ax0.rotateM m).elem ⬝ᵥ (s.orient.ax1.rotateM m).elem = _
      rw [RotMat.rotateM_elem, RotMat.rotateM_elem, vecMul_dot hm]
  · rw [← Option.some.inj h]
    refine ⟨?_, fun hc => absurd hc h5⟩
    show (s.orient.ax0.rotateM m).elem ⬝ᵥ (s.orient.ax0.rotateM m).elem = _
    rw [RotMat.rotateM_elem, vecMul_dot hm]

theorem edited_ok {dbg : Bool} {s : Poly n} {k : Nat} (h : Edited dbg s k) : PolyOk s ∧ s.poly.length = k := by
  have hv1 : ∀ (v : Vec n) (m : RotMat n), m.valid = true → (v.rotateM m).valid = v.valid := fun v m hm => by
    simp [Vec.rotateM, RotMat.invMulVec, hm]
  have hv2 : ∀ (v : Vec n) (m : RotMat n), m.valid = true → (m.mulVec v).valid = v.valid := fun v m hm => by
    simp [RotMat.mulVec, hm]
  induction h with
  | empty => exact ⟨⟨orientOk_empty, by simp [Poly.empty]⟩, rfl⟩
  | add i p eps he _ ha ih =>
    obtain ⟨a, b⟩ := polyOk_add he ih.1 ha
    exact ⟨a, by rw [b, ih.2]⟩
  | @addFail s t k i p eps _ ha ih => rw [(C72_fail s t i p eps).1 ha]; exact ih
  | remove i _ ha ih =>
    obtain ⟨a, b⟩ := polyOk_remove ih.1 ha
    exact ⟨a, by rw [b, ih.2]⟩
  | move i p eps b he _ ha ih =>
    obtain ⟨a, b⟩ := polyOk_move he ih.1 ha
    exact ⟨a, by rw [b, ih.2]⟩
  | @shift s k v hv _ ih =>
    refine ⟨polyOk_of ih.1 (fun h => ?_) ?_ ?_ ?_, ih.2⟩
    · unfold Orient.shift; rw [if_pos h]; simp [h, hv]
    all_goals unfold Orient.shift; split_ifs <;> simp
  | rotatePoint m p hm hmv hp _ ih =>
    refine ⟨polyOk_of ih.1 (fun h => ?_) (hv1 _ _ hmv) (hv1 _ _ hmv) ⟨?_, fun _ => ⟨?_, ?_⟩⟩, ih.2⟩
    · simp [Orient.rotate, Pt.rotate, h, hp, hmv]
    all_goals simp only [Orient.rotate, RotMat.rotateM_elem, vecMul_dot hm]
  | rotateCorner m i hm hmv _ hr ih =>
    unfold Poly.rotateCorner at hr
    obtain ⟨p, -, hr⟩ := Option.bind_eq_some_iff.1 hr
    obtain ⟨o, ho, rfl⟩ := Option.map_eq_some_iff.1 hr
    exact ⟨polyOk_rotate2 ih.1 hm hmv ho, ih.2⟩
  | rotateCenter m hm hmv _ hr ih =>
    unfold Poly.rotateCenter at hr
    split_ifs at hr
    · obtain ⟨o, ho, rfl⟩ := Option.map_eq_some_iff.1 hr
      exact ⟨polyOk_rotate2 ih.1 hm hmv ho, ih.2⟩
    · rw [← Option.some.inj hr]; exact ih
  | toParent o m hm hmv ho _ ih =>
    refine ⟨polyOk_of ih.1 (fun h => ?_) (hv1 _ _ hmv) (hv1 _ _ hmv) ⟨?_, fun _ => ⟨?_, ?_⟩⟩, ih.2⟩
    · simp [Orient.toParent, Pt.toParent, h, ho, hmv]
    all_goals simp only [Orient.toParent, RotMat.rotateM_elem, vecMul_dot hm]
  | toLocal o m hm hmv ho _ ih =>
    refine ⟨polyOk_of ih.1 (fun h => ?_) (hv2 _ _ hmv) (hv2 _ _ hmv) ⟨?_, fun _ => ⟨?_, ?_⟩⟩, ih.2⟩
    · simp [Orient.toLocal, Pt.toLocal, h, ho, hmv]
    all_goals simp only [Orient.toLocal, RotMat.mulVec_elem, mulVec_dot hm]

/-- C90: after any history of edits, shifts, rotations by matrices and changes of coordinates a polygon has the number of corners
the edits say, every corner can be read and so can the centre: no assertion fails. -/
theorem C90_readable (dbg : Bool) (s : Poly n) (k : Nat) (h : Edited dbg s k) :
    s.numCorners = k ∧ (∀ i, s.getCorner i ≠ none ↔ i < k) ∧ (0 < k → s.getCenter ≠ none) := by
  obtain ⟨hok, hl⟩ := edited_ok h
  refine ⟨hl, fun i => ⟨fun hc => ?_, fun hi => ?_⟩, fun hk => ?_⟩
  · obtain ⟨c, hc⟩ := Option.ne_none_iff_exists'.1 hc
    obtain ⟨p, hp, -⟩ := getCorner_some hc
    rw [← hl]; exact (List.getElem?_eq_some_iff.1 hp).1
  · rw [← hl] at hi
    have hp : s.poly.getCorner i = some s.poly[i] := List.getElem?_eq_getElem hi
    rw [getCorner_of hp, convert_ne_none]
    exact hok.placed _ (List.getElem_mem hi)
  · unfold Poly.getCenter
    rw [convert_ne_none]
    have hne : s.poly ≠ [] := by intro hc; rw [hc] at hl; simp at hl; omega
    obtain ⟨x, hx⟩ := List.exists_mem_of_ne_nil _ hne
    refine ⟨(hok.placed x hx).1, ?_, ?_⟩
    · by_cases h0 : s.orient.ax0.valid = true
      · exact Or.inl h0
      · right
        show (Pt.barycenter s.poly).elem 0 = 0
        rw [(C30_mean s.poly hne 0).1]
        have : (s.poly.map fun p => p.elem 0).sum = 0 := by
          apply List.sum_eq_zero
          intro y hy
          obtain ⟨z, hz, rfl⟩ := List.mem_map.1 hy
          exact (hok.placed z hz).2.1.resolve_left h0
        rw [this, zero_div]
    · by_cases h0 : s.orient.ax1.valid = true
      · exact Or.inl h0
      · right
        show (Pt.barycenter s.poly).elem 1 = 0
        rw [(C30_mean s.poly hne 1).1]
        have : (s.poly.map fun p => p.elem 1).sum = 0 := by
          apply List.sum_eq_zero
          intro y hy
          obtain ⟨z, hz, rfl⟩ := List.mem_map.1 hy
          exact (hok.placed z hz).2.2.resolve_left h0
        rw [this, zero_div]

/-- C90: the axes of the plane stay unit vectors, perpendicular up to the products flushed to 0, through all of these. -/
theorem C90_basis (dbg : Bool) (s : Poly n) (k : Nat) (h : Edited dbg s k) :
    (s.orient.ax1.valid = true → s.orient.ax0.valid = true) ∧
    (s.orient.ax0.valid = true → s.orient.ax0.elem ⬝ᵥ s.orient.ax0.elem = 1) ∧
    (s.orient.ax1.valid = true → s.orient.ax1.elem ⬝ᵥ s.orient.ax1.elem = 1 ∧ |s.orient.ax0.elem ⬝ᵥ s.orient.ax1.elem| ≤ 2 * epsilon) :=
  have hI := (edited_ok h).1.ok
  ⟨hI.second, hI.unit0, fun h => ⟨hI.unit1 h, hI.perp h⟩⟩

/-- C90: without assertions the edits return exactly when the index is in range. -/
theorem C90_total (s : Poly n) (i : Nat) (p : Pt n) (eps : ℝ) :
    (s.removeCorner false i ≠ none ↔ i < s.numCorners) ∧ (s.moveCorner false i p eps ≠ none ↔ i < s.numCorners) := by
  have hr : ∀ kept, ∃ o r, s.orient.reduce false kept = some (o, r) := by
    intro kept
    obtain ⟨⟨o, r⟩, h⟩ := Option.ne_none_iff_exists'.1 (reduce_release s.orient kept)
    exact ⟨o, r, h⟩
  unfold Poly.removeCorner Poly.moveCorner Corners.removeCorner Poly.numCorners
  by_cases hi : i < s.poly.length
  · simp only [if_pos hi, Option.bind_some]
    obtain ⟨o, r, h⟩ := hr (s.poly.take i ++ s.poly.drop (i + 1))
    rw [h]
    simp only [Option.map_some, Option.bind_some]
    refine ⟨by simp [hi], ?_⟩
    rcases o.expand p eps with ⟨b, o', p2⟩
    cases b <;> simp [hi]
  · simp only [if_neg hi, Option.bind_none]
    simp [hi]

/-- Corners that are apart from the first one, or equal to it. -/
def Apart (kept : Corners 2) : Prop := ∀ f ps, kept = f :: ps → ∀ x ∈ kept, x.elem = f.elem ∨
  Orient.reduceEps kept * Orient.reduceEps kept ≤ (x.sub f).sqrMag

theorem reduce_displace {dbg : Bool} {o o' : Orient n} {f : Pt 2} {ps : Corners 2} {r : Reorient} (hok : OrientOk o)
    (hk : ∀ x ∈ f :: ps, Placed o x) (hap : Apart (f :: ps)) (h : o.reduce dbg (f :: ps) = some (o', r)) (x : Pt 2) (hx : x ∈ f :: ps) :
    len (o'.at ((r.point x).elem 0) ((r.point x).elem 1) - o.at (x.elem 0) (x.elem 1)) ≤
      3 * epsilon * len (o.at (x.elem 0) (x.elem 1) - o.at (f.elem 0) (f.elem 1)) := by
  have hp := epsilon_pos
  have he2 := epsilon_lt
  norm_num at he2
  have hz : ∀ u v : Fin n → ℝ, u = v → ∀ c, 0 ≤ c → len (u - v) ≤ 3 * epsilon * c := by
    rintro u _ rfl c hc; rw [sub_self, len_zero]; positivity
  obtain ⟨-, -, -, hd⟩ := reduce_spec hok hk h
  have hap' := hap f ps rfl x hx
  rcases hd with hd | hd | ⟨ratio, hd⟩
  · exact hz _ _ (hd x) _ (len_nonneg _)
  · obtain ⟨h1, h2⟩ := hd x hx
    have : x.elem = f.elem := hap'.resolve_right (not_le.2 h2)
    refine hz _ _ ?_ _ (len_nonneg _)
    rw [h1, this]
  · obtain ⟨h1, h2⟩ := hd x hx
    rcases hap' with he | he
    · refine hz _ _ ?_ _ (len_nonneg _)
      rw [h1, he, sub_self, mul_zero, add_zero]
    · replace h2 := h2.resolve_left (not_lt.2 he)
      rw [h1]
      have e1 : o.at (x.elem 0) (f.elem 1 + ratio * (x.elem 0 - f.elem 0)) - o.at (x.elem 0) (x.elem 1) =
          (ratio * (x.elem 0 - f.elem 0) - (x.elem 1 - f.elem 1)) • o.ax1.elem := by unfold Orient.at; module
      have e2 : o.at (x.elem 0) (x.elem 1) - o.at (f.elem 0) (f.elem 1) =
          (x.elem 0 - f.elem 0) • o.ax0.elem + (x.elem 1 - f.elem 1) • o.ax1.elem := by unfold Orient.at; module
      rw [e1, e2, len_smul]
      by_cases ha : o.ax1.valid = true
      · have hu0 := hok.unit0 (hok.second ha)
        have hu1 := hok.unit1 ha
        obtain ⟨b1, b2⟩ := abs_le.1 (hok.perp ha)
        have hl1 : len o.ax1.elem = 1 := by unfold len; rw [hu1, Real.sqrt_one]
        rw [hl1, mul_one]
        refine le_trans h2 ?_
        have hL := len_sq ((x.elem 0 - f.elem 0) • o.ax0.elem + (x.elem 1 - f.elem 1) • o.ax1.elem)
        have hLn := len_nonneg ((x.elem 0 - f.elem 0) • o.ax0.elem + (x.elem 1 - f.elem 1) • o.ax1.elem)
        rw [add_dotProduct, dotProduct_add, dotProduct_add, smul_dotProduct, dotProduct_smul, smul_dotProduct, dotProduct_smul,
          smul_dotProduct, dotProduct_smul, smul_dotProduct, dotProduct_smul,
          hu0, hu1, dotProduct_comm o.ax1.elem o.ax0.elem] at hL
        simp only [smul_eq_mul] at hL
        generalize len ((x.elem 0 - f.elem 0) • o.ax0.elem + (x.elem 1 - f.elem 1) • o.ax1.elem) = l at *
        generalize x.elem 0 - f.elem 0 = a at *
        generalize x.elem 1 - f.elem 1 = b at *
        generalize o.ax0.elem ⬝ᵥ o.ax1.elem = d at *
        have key : 4 * b ^ 2 ≤ 9 * l ^ 2 := by
          have : l ^ 2 = a ^ 2 + b ^ 2 + 2 * (a * b * d) := by rw [hL]; ring
          rw [this]
          nlinarith [sq_nonneg (a + b * d), sq_nonneg a, sq_nonneg b, mul_le_mul_of_nonneg_left (show d ^ 2 ≤ 1 / 4 by nlinarith) (sq_nonneg b)]
        have h3 : 2 * |b| ≤ 3 * l := by
          apply abs_le_of_sq_le_sq' _ (by positivity) |>.2
          rw [mul_pow, sq_abs, mul_pow]; linarith
        nlinarith
      · have h3 := (hk x hx).2.2.resolve_left ha
        have h4 := (hk f (by simp)).2.2.resolve_left ha
        rw [h3, h4, sub_zero, abs_zero, mul_zero] at h2
        rw [h3, h4, sub_zero]
        have h5 : |ratio * (x.elem 0 - f.elem 0) - 0| = 0 := le_antisymm h2 (abs_nonneg _)
        rw [h5, zero_mul]
        have := len_nonneg ((x.elem 0 - f.elem 0) • o.ax0.elem + (0 : ℝ) • o.ax1.elem)
        positivity

/-- C73, removing: when the other corners are apart from, or equal to, the first of them, every other corner stays in place up to
`3 ε` times its distance from that one. (Old index `j` for `j < i`, `j + 1` otherwise.) -/
theorem C73_remove_partial (dbg : Bool) (s t : Poly n) (k i : Nat) (hs : Edited dbg s k) (h : s.removeCorner dbg i = some t)
    (hap : ∀ kept, s.poly.removeCorner i = some kept → Apart kept) (j : Nat) (c f : Pt n)
    (hc : s.getCorner (if j < i then j else j + 1) = some c) (hf : s.getCorner (if 0 < i then 0 else 1) = some f) :
    ∃ c', t.getCorner j = some c' ∧ c'.valid = c.valid ∧ eucl c'.elem c.elem ≤ 3 * epsilon * eucl c.elem f.elem := by
  have hok := (edited_ok hs).1
  unfold Poly.removeCorner at h
  obtain ⟨kept, hk, h⟩ := Option.bind_eq_some_iff.1 h
  obtain ⟨⟨o, r⟩, hr, rfl⟩ := Option.map_eq_some_iff.1 h
  obtain ⟨x, hx, hxc⟩ := getCorner_some hc
  obtain ⟨y, hy, hyf⟩ := getCorner_some hf
  have hxk : kept[j]? = some x := by
    rw [kept_get hk]; unfold Corners.getCorner at hx; split_ifs at hx ⊢ <;> exact hx
  have hyk : kept[0]? = some y := by
    rw [kept_get hk]; unfold Corners.getCorner at hy; split_ifs at hy ⊢ <;> exact hy
  cases hkc : kept with
  | nil => rw [hkc] at hyk; simp at hyk
  | cons f' ps =>
    subst hkc
    have hfy : f' = y := by simpa using hyk
    subst hfy
    have hplaced := fun x (hx : x ∈ f' :: ps) => hok.placed x (mem_kept hk hx)
    obtain ⟨-, hb, hv, -⟩ := reduce_spec hok.ok hplaced hr
    have hxm : x ∈ f' :: ps := List.mem_of_getElem? hxk
    have hd := reduce_displace hok.ok hplaced (hap _ hk) hr x hxm
    obtain ⟨-, -, -, g3, g4⟩ := convert_some hxc
    obtain ⟨-, -, -, l3, -⟩ := convert_some hyf
    obtain ⟨p1, p2, p3⟩ := hb x hxm
    have hget : (⟨o, (f' :: ps).map r.point⟩ : Poly n).poly.getCorner j = some (r.point x) := by
      show ((f' :: ps).map r.point)[j]? = _
      rw [List.getElem?_map, hxk]; rfl
    refine ⟨_, (getCorner_of hget).trans (convert_eq p1 p2 p3), ?_, ?_⟩
    · rw [g4]; exact hv x
    · rw [eucl_eq_len, eucl_eq_len, g3, l3]; exact hd

/-- C73, moving: on success the moved corner is where asked (up to the tolerance of `addCorner`, C72), and every other corner stays
in place up to `3 ε` times its distance from the first of them, provided these are apart from, or equal to, that one. On
failure nothing changes. -/
theorem C73_move_partial (dbg : Bool) (s t : Poly n) (k i : Nat) (p : Pt n) (eps : ℝ) (he : 0 ≤ eps) (b : Bool) (hs : Edited dbg s k)
    (h : s.moveCorner dbg i p eps = some (b, t)) :
    (b = false → t = s) ∧
    (b = true → ∃ c, t.getCorner i = some c ∧ c.valid = true ∧
      eucl c.elem p.elem ≤ 2 * epsilon + Real.sqrt (eps + 2 * epsilon) * eucl p.elem t.orient.origin.elem) ∧
    (b = true → (∀ kept, s.poly.removeCorner i = some kept → Apart kept) → ∀ j c f, j ≠ i → s.getCorner j = some c →
      s.getCorner (if 0 < i then 0 else 1) = some f →
      ∃ c', t.getCorner j = some c' ∧ c'.valid = c.valid ∧ eucl c'.elem c.elem ≤ 3 * epsilon * eucl c.elem f.elem) := by
  have hok := (edited_ok hs).1
  unfold Poly.moveCorner at h
  obtain ⟨kept, hk, h⟩ := Option.bind_eq_some_iff.1 h
  obtain ⟨⟨o, r⟩, hr, h⟩ := Option.bind_eq_some_iff.1 h
  rcases hx : o.expand p eps with ⟨b', o', p2⟩
  simp only [hx] at h
  cases b'
  · simp only [Bool.false_eq_true, if_false, Option.some.injEq, Prod.mk.injEq] at h
    obtain ⟨rfl, rfl⟩ := h
    exact ⟨fun _ => rfl, fun h => by simp at h, fun h => by simp at h⟩
  simp only [if_true, Option.some.injEq, Prod.mk.injEq] at h
  obtain ⟨rfl, rfl⟩ := h
  have hi := (kept_length hk).2
  have hok' : OrientOk o := by
    cases hkc : kept with
    | nil =>
      subst hkc
      simp only [Orient.reduce, Option.some.injEq, Prod.mk.injEq] at hr
      obtain ⟨rfl, rfl⟩ := hr
      exact orientOk_invalid _
    | cons f ps =>
      subst hkc
      exact (reduce_spec hok.ok (fun x hx => hok.placed x (mem_kept hk hx)) hr).1
  obtain ⟨k1, k2, k3, k4, k5, k6, k7, k8, k9, k10⟩ := expand_spec he hok' hx
  refine ⟨fun h => by simp at h, fun _ => ?_, fun _ hap j c f hji hc hf => ?_⟩
  · have hget : (⟨o', (s.poly.map r.point).set i p2⟩ : Poly n).poly.getCorner i = some p2 := by
      show ((s.poly.map r.point).set i p2)[i]? = _
      rw [List.getElem?_set_self]; simpa using hi
    refine ⟨_, (getCorner_of hget).trans (convert_eq k2 k8 k9), k7, ?_⟩
    rw [eucl_eq_len, eucl_eq_len]
    exact k10.le he (len_nonneg _)
  · obtain ⟨x, hx', hxc⟩ := getCorner_some hc
    obtain ⟨y, hy, hyf⟩ := getCorner_some hf
    have hxk : kept[if j < i then j else j - 1]? = some x := by
      rw [kept_get hk]
      unfold Corners.getCorner at hx'
      by_cases hj : j < i
      · simp only [hj, if_true]; exact hx'
      · have h1 : ¬ (j - 1 < i) := by omega
        simp only [hj, h1, if_false]
        rw [show j - 1 + 1 = j by omega]; exact hx'
    have hyk : kept[0]? = some y := by
      rw [kept_get hk]; unfold Corners.getCorner at hy; split_ifs at hy ⊢ <;> exact hy
    cases hkc : kept with
    | nil => rw [hkc] at hyk; simp at hyk
    | cons f' ps =>
      subst hkc
      have hfy : f' = y := by simpa using hyk
      subst hfy
      have hplaced := fun x (hx : x ∈ f' :: ps) => hok.placed x (mem_kept hk hx)
      obtain ⟨-, hb, hv, -⟩ := reduce_spec hok.ok hplaced hr
      have hxm : x ∈ f' :: ps := List.mem_of_getElem? hxk
      have hd := reduce_displace hok.ok hplaced (hap _ hk) hr x hxm
      obtain ⟨-, -, -, g3, g4⟩ := convert_some hxc
      obtain ⟨-, -, -, l3, -⟩ := convert_some hyf
      have hpl := hb x hxm
      obtain ⟨q1, q2, q3⟩ := hpl.mono k2 (fun h => by rw [k5 h]; exact h) (fun h => by rw [k6 h]; exact h) (o' := o')
      have hget : (⟨o', (s.poly.map r.point).set i p2⟩ : Poly n).poly.getCorner j = some (r.point x) := by
        show ((s.poly.map r.point).set i p2)[j]? = _
        rw [List.getElem?_set_ne (Ne.symm hji), List.getElem?_map]
        unfold Corners.getCorner at hx'
        rw [hx']; rfl
      refine ⟨_, (getCorner_of hget).trans (convert_eq q1 q2 q3), ?_, ?_⟩
      · rw [g4]; exact hv x
      · rw [eucl_eq_len, eucl_eq_len, g3, l3]
        show len (o'.at _ _ - _) ≤ _
        rw [at_mono (k3 hpl.1) k5 k6 hpl.2.1 hpl.2.2]; exact hd

theorem Built.edited {dbg : Bool} {eps : ℝ} (he : 0 ≤ eps) {s : Poly n} {ps : List (Pt n)} {first : Option (Pt n)} (h : Built eps s ps first) :
    ∃ k, Edited dbg s k := by
  induction h with
  | empty => exact ⟨0, .empty⟩
  | add i p _ ha ih => exact ⟨_, .add i p eps he ih.choose_spec ha⟩
  | fail i p _ ha ih => exact ⟨_, .addFail i p eps ih.choose_spec ha⟩

theorem frexpExp_one : frexpExp 1 = 1 := frexpExp_eq (by norm_num) (by norm_num)

/-- C73 is false in builds with assertions: removing the last corner of the triangle `(0, 1, 0), (0, 0, 0), (1, 0, 0)` aborts
(the assertions compare a signed difference, not its absolute value, with the tolerance). -/
theorem C73_false : ∃ s : Poly 3, Edited true s 3 ∧ s.numCorners = 3 ∧ s.removeCorner true 2 = none := by
  have he2 := epsilon_lt
  norm_num at he2
  have hp := epsilon_pos
  obtain ⟨s, h1, h2⟩ := twoCorners_built
  have a := Edited.add (dbg := true) 0 _ epsilon hp.le (Edited.empty (n := 3)) h1
  have b := Edited.add 1 _ epsilon hp.le a h2
  have h3 : twoCorners.addCorner 0 ⟨![0, 1, 0], true⟩ epsilon =
      some (true, ⟨threeCorners.orient, [⟨![0, 1], true⟩, ⟨![0, 0], true⟩, ⟨![1, 0], true⟩]⟩) := by
    unfold Poly.addCorner
    rw [show twoCorners.orient = ⟨⟨0, true⟩, ⟨![1, 0, 0], true⟩, Vec.default⟩ from rfl, expand_third]
    rfl
  refine ⟨_, Edited.add 0 _ epsilon hp.le b h3, rfl, ?_⟩
  have hE : Orient.reduceEps [⟨![0, 1], true⟩, ⟨![0, 0], true⟩] = epsilon := by
    unfold Orient.reduceEps
    simp only [List.foldl]
    norm_num [frexpExp_zero, ldexp]
  unfold Poly.removeCorner
  rw [show Corners.removeCorner [⟨![0, 1], true⟩, ⟨![0, 0], true⟩, ⟨![1, 0], true⟩] 2 = some [⟨![0, 1], true⟩, ⟨![0, 0], true⟩] from rfl,
    Option.bind_some]
  have : threeCorners.orient.reduce true [⟨![0, 1], true⟩, ⟨![0, 0], true⟩] = none := by
    unfold Orient.reduce
    simp only
    rw [if_neg (by simp [threeCorners]), if_neg (by simp [threeCorners])]
    simp only [hE, Orient.scan]
    have hq : ((⟨![0, 0], true⟩ : Pt 2).sub ⟨![0, 1], true⟩).sqrMag = 1 := by
      simp [Vec.sqrMag_eq, Pt.sub, dotProduct, Fin.sum_univ_two]
    rw [hq, if_neg (by nlinarith), if_neg (by simp [threeCorners]),
      if_pos ⟨by simp [Pt.sub]; exact hp, trivial, by simp [Pt.sub]; linarith⟩]
  rw [this]; rfl

/-- C73 is false in every build: removing the first corner of the planar polygon `(0, 0, 0), (1, 0, 0), (1 + 8 ε, 1, 0),
(1 + ε, 0, 0)` moves its last corner by `1/8`. -/
theorem C73_moved_false (dbg : Bool) : ∃ (s t : Poly 3) (c c' : Pt 3), Edited dbg s 4 ∧ s.getCorner 3 = some c ∧
    s.removeCorner dbg 0 = some t ∧ t.getCorner 2 = some c' ∧ c.elem = ![1 + epsilon, 0, 0] ∧ c'.elem = ![1 + epsilon, 1 / 8, 0] := by
  have he2 := epsilon_lt
  norm_num at he2
  have hp := epsilon_pos
  have hb1 : twoCorners.orient.expand ⟨![1 + 8 * epsilon, 1, 0], true⟩ epsilon = (true, threeCorners.orient, ⟨![1 + 8 * epsilon, 1], true⟩) := by
    have hs : (⟨![1 + 8 * epsilon, 1, 0], true⟩ : Pt 3).sub ⟨0, true⟩ = ⟨![1 + 8 * epsilon, 1, 0], true⟩ := by
      ext i
      · fin_cases i <;> simp [Pt.sub]
      · rfl
    have hab : |1 + 8 * epsilon| = 1 + 8 * epsilon := abs_of_pos (by linarith)
    have hM : ∀ i, |(⟨![1 + 8 * epsilon, 1, 0], true⟩ : Vec 3).elem i| ≤ 2 := by
      intro i
      fin_cases i
      · show |1 + 8 * epsilon| ≤ 2; rw [hab]; linarith
      · norm_num
      · norm_num
    have e : (![1 + 8 * epsilon, 1, 0] : Fin 3 → ℝ) ⬝ᵥ ![1 + 8 * epsilon, 1, 0] = (1 + 8 * epsilon) ^ 2 + 1 := by
      simp [dotProduct, Fin.sum_univ_three]; ring
    have hq : (⟨![1 + 8 * epsilon, 1, 0], true⟩ : Vec 3).sqrMag = (1 + 8 * epsilon) ^ 2 + 1 := by
      rw [Vec.sqrMag_eq, e]
    have hd : (⟨![1 + 8 * epsilon, 1, 0], true⟩ : Vec 3).dot ⟨![1 + 8 * epsilon, 1, 0], true⟩ = (1 + 8 * epsilon) ^ 2 + 1 := by
      rw [dot_of_le hM (by rw [e, abs_of_pos (by positivity)]; nlinarith), e]
    have e0 : (![1 + 8 * epsilon, 1, 0] : Fin 3 → ℝ) ⬝ᵥ ![1, 0, 0] = 1 + 8 * epsilon := by
      simp [dotProduct, Fin.sum_univ_three]
    have h0 : (⟨![1 + 8 * epsilon, 1, 0], true⟩ : Vec 3).dot ⟨![1, 0, 0], true⟩ = 1 + 8 * epsilon := by
      rw [dot_of_le hM (by rw [e0, hab]; nlinarith), e0]
    have h1 : (⟨![1 + 8 * epsilon, 1, 0], true⟩ : Vec 3) - (⟨![1, 0, 0], true⟩ : Vec 3).scale (1 + 8 * epsilon) = ⟨![0, 1, 0], true⟩ := by
      ext i
      · rw [sub_elem', scale_elem]; fin_cases i <;> simp
      · rfl
    have e2 : (![0, 1, 0] : Fin 3 → ℝ) ⬝ᵥ ![1 + 8 * epsilon, 1, 0] = 1 := by simp [dotProduct, Fin.sum_univ_three]
    have h2 : (⟨![0, 1, 0], true⟩ : Vec 3).dot ⟨![1 + 8 * epsilon, 1, 0], true⟩ = 1 := by
      rw [dot_of_le (M := 1) (fun i => by fin_cases i <;> simp) (by rw [e2, abs_one]; linarith), e2]
    have hm : (⟨![0, 1, 0], true⟩ : Vec 3).mag = 1 := by
      unfold Vec.mag; rw [Vec.sqrMag_eq]; simp [dotProduct, Fin.sum_univ_three]
    unfold Orient.expand
    rw [if_neg (by simp [twoCorners])]
    simp only [twoCorners, hs, hd, hq, h0, h1, h2, hm]
    rw [if_neg (by nlinarith), if_neg (by simp), if_neg (by nlinarith), if_pos (show (Vec.default : Vec 3).valid = false from rfl)]
    have : ((⟨![0, 1, 0], true⟩ : Vec 3).divBy 1).elem = ![0, 1, 0] := by rw [divBy_elem]; simp
    rw [this]; rfl
  have hb2 : threeCorners.orient.expand ⟨![1 + epsilon, 0, 0], true⟩ epsilon = (true, threeCorners.orient, ⟨![1 + epsilon, 0], true⟩) := by
    have hs : (⟨![1 + epsilon, 0, 0], true⟩ : Pt 3).sub ⟨0, true⟩ = ⟨![1 + epsilon, 0, 0], true⟩ := by
      ext i
      · fin_cases i <;> simp [Pt.sub]
      · rfl
    have hab : |1 + epsilon| = 1 + epsilon := abs_of_pos (by linarith)
    have hM : ∀ i, |(⟨![1 + epsilon, 0, 0], true⟩ : Vec 3).elem i| ≤ 2 := by
      intro i
      fin_cases i
      · show |1 + epsilon| ≤ 2; rw [hab]; linarith
      · norm_num
      · norm_num
    have e : (![1 + epsilon, 0, 0] : Fin 3 → ℝ) ⬝ᵥ ![1 + epsilon, 0, 0] = (1 + epsilon) ^ 2 := by
      simp [dotProduct, Fin.sum_univ_three]; ring
    have hq : (⟨![1 + epsilon, 0, 0], true⟩ : Vec 3).sqrMag = (1 + epsilon) ^ 2 := by
      rw [Vec.sqrMag_eq, e]
    have hd : (⟨![1 + epsilon, 0, 0], true⟩ : Vec 3).dot ⟨![1 + epsilon, 0, 0], true⟩ = (1 + epsilon) ^ 2 := by
      rw [dot_of_le hM (by rw [e, abs_of_pos (by positivity)]; nlinarith), e]
    have e0 : (![1 + epsilon, 0, 0] : Fin 3 → ℝ) ⬝ᵥ ![1, 0, 0] = 1 + epsilon := by
      simp [dotProduct, Fin.sum_univ_three]
    have h0 : (⟨![1 + epsilon, 0, 0], true⟩ : Vec 3).dot ⟨![1, 0, 0], true⟩ = 1 + epsilon := by
      rw [dot_of_le hM (by rw [e0, hab]; nlinarith), e0]
    have h1 : (⟨![1 + epsilon, 0, 0], true⟩ : Vec 3) - (⟨![1, 0, 0], true⟩ : Vec 3).scale (1 + epsilon) = ⟨0, true⟩ := by
      ext i
      · rw [sub_elem', scale_elem]; fin_cases i <;> simp
      · rfl
    have h2 : (⟨0, true⟩ : Vec 3).dot ⟨![1 + epsilon, 0, 0], true⟩ = 0 := Vec.dot_of_exact_zero (by simp)
    unfold Orient.expand
    rw [if_neg (by simp [threeCorners])]
    simp only [threeCorners, hs, hd, hq, h0, h1, h2]
    rw [if_neg (by nlinarith), if_neg (by simp), if_pos (by positivity)]
  obtain ⟨s, a1, a2⟩ := twoCorners_built
  have a := Edited.add (dbg := dbg) 0 _ epsilon hp.le (Edited.empty (n := 3)) a1
  have b := Edited.add 1 _ epsilon hp.le a a2
  have a3 : twoCorners.addCorner 2 ⟨![1 + 8 * epsilon, 1, 0], true⟩ epsilon =
      some (true, ⟨threeCorners.orient, [⟨![0, 0], true⟩, ⟨![1, 0], true⟩, ⟨![1 + 8 * epsilon, 1], true⟩]⟩) := by
    unfold Poly.addCorner; rw [hb1]; rfl
  have c := Edited.add 2 _ epsilon hp.le b a3
  have a4 : (⟨threeCorners.orient, [⟨![0, 0], true⟩, ⟨![1, 0], true⟩, ⟨![1 + 8 * epsilon, 1], true⟩]⟩ : Poly 3).addCorner 3
      ⟨![1 + epsilon, 0, 0], true⟩ epsilon = some (true, ⟨threeCorners.orient, [⟨![0, 0], true⟩, ⟨![1, 0], true⟩,
        ⟨![1 + 8 * epsilon, 1], true⟩, ⟨![1 + epsilon, 0], true⟩]⟩) := by
    unfold Poly.addCorner
    simp only [hb2]; rfl
  have d := Edited.add 3 _ epsilon hp.le c a4
  let kept : Corners 2 := [⟨![1, 0], true⟩, ⟨![1 + 8 * epsilon, 1], true⟩, ⟨![1 + epsilon, 0], true⟩]
  have hE : Orient.reduceEps kept = 2 * epsilon := by
    have l1 : |(1 + 8 * epsilon)| = 1 + 8 * epsilon := abs_of_pos (by linarith)
    have l2 : |(1 + epsilon)| = 1 + epsilon := abs_of_pos (by linarith)
    have g1 : (1 : ℝ) < 1 + 8 * epsilon := by linarith
    have g2 : (0 : ℝ) < 1 + epsilon := by linarith
    have g3 : ¬ (1 + 8 * epsilon < 1) := by linarith
    have g4 : ¬ (1 + epsilon < 1) := by linarith
    unfold Orient.reduceEps
    simp only [kept, List.foldl, Matrix.cons_val_zero, Matrix.cons_val_one, abs_one, abs_zero, l1, l2, gt_iff_lt, g1, g2, g3, g4, zero_lt_one,
      if_true, if_false, frexpExp_one, ldexp]
    norm_num; ring
  let o' : Orient 3 := ⟨threeCorners.orient.origin.addVec (threeCorners.orient.ax1.scale (0 - 1 / (8 * epsilon) * 1)),
      (threeCorners.orient.ax0 + threeCorners.orient.ax1.scale (1 / (8 * epsilon))).divBy
        (threeCorners.orient.ax0 + threeCorners.orient.ax1.scale (1 / (8 * epsilon))).mag, ⟨threeCorners.orient.ax1.elem, false⟩⟩
  have hr : threeCorners.orient.reduce dbg kept = some (o', .scale1 (threeCorners.orient.ax0 + threeCorners.orient.ax1.scale (1 / (8 * epsilon))).mag) := by
    unfold Orient.reduce
    simp only [kept]
    rw [if_neg (by simp [threeCorners]), if_neg (by simp [threeCorners])]
    rw [show Orient.reduceEps [⟨![1, 0], true⟩, ⟨![1 + 8 * epsilon, 1], true⟩, ⟨![1 + epsilon, 0], true⟩] = 2 * epsilon from hE]
    have hq1 : ((⟨![1 + 8 * epsilon, 1], true⟩ : Pt 2).sub ⟨![1, 0], true⟩).sqrMag = (8 * epsilon) ^ 2 + 1 := by
      simp [Vec.sqrMag_eq, Pt.sub, dotProduct, Fin.sum_univ_two]; ring
    have hq2 : ((⟨![1 + epsilon, 0], true⟩ : Pt 2).sub ⟨![1, 0], true⟩).sqrMag = epsilon ^ 2 := by
      simp [Vec.sqrMag_eq, Pt.sub, dotProduct, Fin.sum_univ_two]; ring
    have d0 : ((⟨![1 + 8 * epsilon, 1], true⟩ : Pt 2).sub ⟨![1, 0], true⟩).elem 0 = 8 * epsilon := by simp [Pt.sub]
    have d1 : ((⟨![1 + 8 * epsilon, 1], true⟩ : Pt 2).sub ⟨![1, 0], true⟩).elem 1 = 1 := by simp [Pt.sub]
    have c0 : ¬ |8 * epsilon| < 2 * epsilon := by rw [abs_of_pos (by linarith)]; linarith
    have c1 : ¬ |(1 : ℝ)| < 2 * epsilon := by rw [abs_one]; linarith
    have hsc : Orient.scan dbg threeCorners.orient.ax1.valid (2 * epsilon) ⟨![1, 0], true⟩
        [⟨![1 + 8 * epsilon, 1], true⟩, ⟨![1 + epsilon, 0], true⟩] false false false 0 = .done false false true (1 / (8 * epsilon)) := by
      simp only [Orient.scan, d0, d1, hq1, hq2]
      rw [if_neg (by nlinarith), if_neg (by simp [threeCorners]), if_neg (fun h => c0 h.1), if_neg (fun h => c0 h.1),
        if_neg (fun h => c1 h.1), if_neg (fun h => c1 h.1)]
      simp only [c0, c1, if_false]
      rw [if_neg (by simp), if_pos trivial, if_pos (by nlinarith)]
    simp only [hsc]
    rfl
  have hm : (threeCorners.orient.ax0 + threeCorners.orient.ax1.scale (1 / (8 * epsilon))).mag ≠ 0 := by
    apply ne_of_gt
    rw [Vec.mag_pos]
    intro h
    have := congrFun h 0
    simp [threeCorners, Vec.scale] at this
  let t : Poly 3 := ⟨o', kept.map (Reorient.point (.scale1 (threeCorners.orient.ax0 + threeCorners.orient.ax1.scale (1 / (8 * epsilon))).mag))⟩
  refine ⟨_, t, _, _, d, (getCorner_of (p := ⟨![1 + epsilon, 0], true⟩) rfl).trans (convert_eq (p := ⟨![1 + epsilon, 0], true⟩) rfl (Or.inl rfl) (Or.inl rfl)),
    ?_, (getCorner_of (s := t) (p := Reorient.point _ ⟨![1 + epsilon, 0], true⟩) rfl).trans (convert_eq rfl (Or.inl rfl) (Or.inr rfl)), ?_, ?_⟩
  · unfold Poly.removeCorner
    rw [show Corners.removeCorner [⟨![0, 0], true⟩, ⟨![1, 0], true⟩, ⟨![1 + 8 * epsilon, 1], true⟩, ⟨![1 + epsilon, 0], true⟩] 0 = some kept
      from rfl, Option.bind_some, hr]
    rfl
  · unfold Orient.at threeCorners; funext i; fin_cases i <;> simp
  · show (threeCorners.orient.origin.addVec (threeCorners.orient.ax1.scale (0 - 1 / (8 * epsilon) * 1))).elem + ((1 + epsilon) * _) •
      ((threeCorners.orient.ax0 + threeCorners.orient.ax1.scale (1 / (8 * epsilon))).divBy _).elem + (0 : ℝ) • _ = _
    rw [divBy_elem, smul_smul, mul_assoc, mul_inv_cancel₀ hm, Pt.addVec_elem, scale_elem,
      show (threeCorners.orient.ax0 + threeCorners.orient.ax1.scale (1 / (8 * epsilon))).elem =
        threeCorners.orient.ax0.elem + (threeCorners.orient.ax1.scale (1 / (8 * epsilon))).elem from rfl, scale_elem]
    funext i
    fin_cases i
    · simp [threeCorners]
    · simp [threeCorners]
      field_simp; ring
    · simp [threeCorners]

/-- The hypotheses of `C73_remove_partial` are met: taking the first corner off the triangle leaves two corners that are apart. -/
example : Edited false threeCorners 3 ∧ (∃ t, threeCorners.removeCorner false 0 = some t) ∧
    ∀ kept, threeCorners.poly.removeCorner 0 = some kept → Apart kept := by
  have he2 := epsilon_lt
  norm_num at he2
  have hp := epsilon_pos
  obtain ⟨k, hk⟩ := threeCorners_built.edited (dbg := false) hp.le
  have h3 : (3 : Nat) = k := (edited_ok hk).2
  refine ⟨h3 ▸ hk, Option.ne_none_iff_exists'.1 ((C90_total _ 0 ⟨0, true⟩ 0).1.2 (by decide)), ?_⟩
  intro kept hkept f ps hf x hx
  have : kept = [⟨![1, 0], true⟩, ⟨![0, 1], true⟩] := (Option.some.inj hkept).symm
  subst this
  have hE : Orient.reduceEps [⟨![1, 0], true⟩, ⟨![0, 1], true⟩] = 2 * epsilon := by
    unfold Orient.reduceEps
    simp only [List.foldl]
    norm_num [frexpExp_one, ldexp]; ring
  obtain ⟨rfl, rfl⟩ := List.cons.inj hf
  rcases List.mem_cons.1 hx with rfl | hx
  · exact Or.inl rfl
  · rw [List.mem_singleton] at hx
    subst hx
    right
    rw [hE]
    simp [Vec.sqrMag_eq, Pt.sub, dotProduct, Fin.sum_univ_two]
    nlinarith

end WFMath
