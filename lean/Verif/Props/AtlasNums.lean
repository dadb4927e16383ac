/- C78, C79: what counts as a list of numbers in a message, and when the objects written to it are valid. -/
import Verif.Props.Atlas

namespace WFMath
variable {n : Nat}

/-- A message element that stands for a number: an integer of either sign for itself, a floating point number for itself. -/
inductive StandsFor : Elem → XNum → Prop
  | int (i : ℤ) : StandsFor (.int i) (.fin i)
  | float (x : XNum) : StandsFor (.float x) x

theorem num?_iff (e : Elem) (x : XNum) : e.num? = some x ↔ StandsFor e x := by
  constructor
  · intro h
    cases e <;> simp only [Elem.num?, Option.some.injEq, reduceCtorEq] at h
    · rw [← h]; exact .int _
    · rw [← h]; exact .float _
  · rintro (i | x) <;> rfl

/-- C79: a vector or a point is read without an exception exactly from a list of `dim` elements, each an integer (of either
sign) or a floating point number; coordinate `i` is then the number the `i`-th element stands for, and the result is valid exactly
if they are all finite. -/
theorem C79_numbers (p : XPt n) (a : Elem) :
    ((p.fromAtlas a).2 = false ↔ ∃ l, a = .list l ∧ l.length = n ∧ ∀ e ∈ l, ∃ x, StandsFor e x) ∧
    ∀ l, a = .list l → (p.fromAtlas a).2 = false →
      (∀ (i : Fin n) (hi : i.val < l.length), StandsFor l[i.val] ((p.fromAtlas a).1.elem i)) ∧
      ((p.fromAtlas a).1.valid = true ↔ ∀ (i : Fin n), ((p.fromAtlas a).1.elem i).isFinite = true) := by
  have c := C79_vector p a
  have s := arrayFromAtlas_spec p.elem a
  have key : (p.fromAtlas a).2 = false → ∀ l, a = .list l →
      l.length = n ∧ ∀ (i : Fin n) (hi : i.val < l.length), StandsFor l[i.val] ((p.fromAtlas a).1.elem i) := by
    rintro h l rfl
    have h1 := isNums_ofFn.1 (c.2 h).1
    refine ⟨h1.1, fun i hi => (num?_iff _ _).1 ?_⟩
    have := h1.2 i
    rwa [List.getD_eq_getElem?_getD, List.getElem?_eq_getElem hi, Option.getD_some] at this
  refine ⟨⟨fun h => ?_, ?_⟩, fun l hl h => ⟨(key h l hl).2, (c.2 h).2⟩⟩
  · obtain ⟨l, rfl, -⟩ := (c.2 h).1
    have k := key h l rfl
    refine ⟨l, rfl, k.1, fun e he => ?_⟩
    obtain ⟨j, hj, rfl⟩ := List.getElem_of_mem he
    exact ⟨_, k.2 ⟨j, by omega⟩ hj⟩
  · rintro ⟨l, rfl, hl, hx⟩
    by_contra hf
    rw [Bool.not_eq_false] at hf
    have : (arrayFromAtlas p.elem (.list l)).2 = true := by
      rw [XPt.fromAtlas] at hf
      revert hf
      cases arrayFromAtlas p.elem (.list l) with
      | mk d t => cases t <;> simp
    choose f hfx using fun i : Fin n => hx (l[i.val]'(by omega)) (List.getElem_mem _)
    refine (s.2.2 this) f (isNums_ofFn.2 ⟨hl, fun i => ?_⟩)
    rw [List.getD_eq_getElem?_getD, List.getElem?_eq_getElem (by omega), Option.getD_some]
    exact (num?_iff _ _).2 (hfx i)

/-- C78: an object that is written counts as valid exactly if the object of the program does. -/
theorem C78_valid (v : Vec n) (p : Pt n) (q : Quat) (b : Box n) (s : Ball n) (r : RBox n) :
    (XPt.ofVec v).valid = v.valid ∧ (XPt.ofPt p).valid = p.valid ∧ (XQuat.ofQuat q).valid = q.valid ∧
    ((XBox.ofBox b).valid = true ↔ b.low.valid = true ∧ b.high.valid = true) ∧
    ((XBall.ofBall s).valid = true ↔ s.center.valid = true) ∧
    ((XRBox.ofRBox r).valid = true ↔ r.corner.valid = true ∧ r.size.valid = true ∧ r.orient.valid = true) := by
  refine ⟨rfl, rfl, rfl, ?_, Iff.rfl, ?_⟩
  · simp [XBox.valid, XBox.ofBox, XPt.ofPt]
  · simp [XRBox.valid, XRBox.ofRBox, XPt.ofPt, XPt.ofVec, and_assoc]

/-- Non-vacuity: a list with a negative integer and an infinity is read, with these numbers; it is not valid. -/
example : let a : Elem := .list [.int (-3), .float .pinf]
    let p : XPt 2 := ⟨fun _ => .fin 0, true⟩
    (p.fromAtlas a).2 = false ∧ (p.fromAtlas a).1.valid = false := by
  intro a p
  have c := C79_numbers p a
  have h : (p.fromAtlas a).2 = false := c.1.2 ⟨_, rfl, rfl, fun e he => by
    simp only [List.mem_cons, List.not_mem_nil, or_false] at he
    rcases he with rfl | rfl
    · exact ⟨_, .int _⟩
    · exact ⟨_, .float _⟩⟩
  refine ⟨h, ?_⟩
  by_contra hv
  rw [Bool.not_eq_false] at hv
  have h2 := ((c.2 _ rfl h).2.1 hv) 1
  have h3 := (c.2 _ rfl h).1 1 (by decide)
  simp only [List.getElem_cons_succ, List.getElem_cons_zero, Fin.val_one] at h3
  have h4 : (p.fromAtlas a).1.elem 1 = .pinf := by
    generalize (p.fromAtlas a).1.elem 1 = y at h3
    cases h3; rfl
  rw [h4] at h2
  simp [XNum.isFinite] at h2

end WFMath
