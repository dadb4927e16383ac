/-
Model of `/repo/src/wfmath/atlasconv.h`: conversion to and from Atlas messages.

Numbers in messages may be infinite or NaN. `fromAtlas` may throw half way, so each model returns the object as it is left and
whether an exception was thrown.
-/
import Verif.Model.Polygon

namespace WFMath
variable {n : Nat}

/-- A `double`, rounding aside. -/
inductive XNum where
  | fin (x : ℝ)
  | pinf
  | ninf
  | nan

namespace XNum
/-- `std::isfinite`. -/
def isFinite : XNum → Bool
  | .fin _ => true
  | _ => false
/-- The value of a finite number. -/
noncomputable def val : XNum → ℝ
  | .fin x => x
  | _ => 0
open Classical in
/-- `a > b`. -/
noncomputable def gt : XNum → XNum → Bool
  | .fin x, .fin y => decide (x > y)
  | .pinf, .fin _ => true
  | .pinf, .ninf => true
  | .fin _, .ninf => true
  | _, _ => false
end XNum

/-- Atlas messages (`Atlas::Message::Element`). -/
inductive Elem where
  | none
  | int (i : ℤ)
  | float (x : XNum)
  | str (s : String)
  | list (l : List Elem)
  | map (m : List (String × Elem))

namespace Elem
/-- `isNum` and `asNum`: an integer or a float; `none`: `asNum` throws. -/
noncomputable def num? : Elem → Option XNum
  | .int i => some (.fin i)
  | .float x => some x
  | _ => Option.none
/-- `isList` and `asList`. -/
def list? : Elem → Option (List Elem)
  | .list l => some l
  | _ => Option.none
/-- `isMap` and `asMap`. -/
def map? : Elem → Option (List (String × Elem))
  | .map m => some m
  | _ => Option.none
/-- `MapType::find`. -/
def find (m : List (String × Elem)) (k : String) : Option Elem := (m.find? fun e => e.1 == k).map Prod.snd
end Elem

/-- `Vector<dim>` or `Point<dim>` whose coordinates may be infinite or NaN. -/
@[ext] structure XPt (n : Nat) where
  elem : Fin n → XNum
  valid : Bool

/-- A vector. -/
def XPt.ofVec (v : Vec n) : XPt n := ⟨fun i => .fin (v.elem i), v.valid⟩
/-- A point. -/
def XPt.ofPt (p : Pt n) : XPt n := ⟨fun i => .fin (p.elem i), p.valid⟩

/-- atlasconv.h 78-86 `_ArrayToAtlas`. -/
def arrayToAtlas (d : Fin n → XNum) : Elem := .list (List.ofFn fun i => .float (d i))

/-- atlasconv.h 98-99: the loop of `_ArrayFromAtlas` over the indices left; the flag tells whether it threw. -/
noncomputable def arrayLoop (l : List Elem) : List (Fin n) → (Fin n → XNum) → (Fin n → XNum) × Bool
  | [], d => (d, false)
  | i :: is, d => match (l.getD i.val .none).num? with
    | Option.none => (d, true)
    | some x => arrayLoop l is (Function.update d i x)

/-- atlasconv.h 88-100 `_ArrayFromAtlas`. -/
noncomputable def arrayFromAtlas (d : Fin n → XNum) (a : Elem) : (Fin n → XNum) × Bool :=
  match a.list? with
  | Option.none => (d, true)
  | some l => if l.length ≠ n then (d, true) else arrayLoop l (List.finRange n) d

/-- atlasconv.h 108-119 `Vector::fromAtlas`, 189-200 `Point::fromAtlas` (the same code). -/
noncomputable def XPt.fromAtlas (p : XPt n) (a : Elem) : XPt n × Bool :=
  match arrayFromAtlas p.elem a with
  | (d, true) => (⟨d, p.valid⟩, true)
  | (d, false) => (⟨d, (List.finRange n).all fun i => (d i).isFinite⟩, false)

/-- atlasconv.h 121-125 `Vector::toAtlas`, 202-206 `Point::toAtlas`. -/
def XPt.toAtlas (p : XPt n) : Elem := arrayToAtlas p.elem

/-! ### Quaternion -/

/-- A quaternion whose components may be infinite or NaN. -/
@[ext] structure XQuat where
  w : XNum
  vec : XPt 3
  valid : Bool
  age : Nat

/-- A quaternion. -/
def XQuat.ofQuat (q : Quat) : XQuat := ⟨.fin q.w, XPt.ofVec q.vec, q.valid, q.age⟩

/-- atlasconv.h 127-170 `Quaternion::fromAtlas`. Overflow of the squares is not modelled. -/
noncomputable def XQuat.fromAtlas (q : XQuat) (a : Elem) : XQuat × Bool :=
  match a.list? with
  | Option.none => (q, true)
  | some l =>
    if l.length ≠ 4 then (q, true)
    else match arrayLoop l (List.finRange 3) q.vec.elem with
      | (d, true) => (⟨q.w, ⟨d, q.vec.valid⟩, q.valid, q.age⟩, true)
      | (d, false) =>
        if ((List.finRange 3).all fun i => (d i).isFinite) = false then (⟨q.w, ⟨d, false⟩, false, q.age⟩, false)
        else match (l.getD 3 .none).num? with
          | Option.none => (⟨q.w, ⟨d, q.vec.valid⟩, q.valid, q.age⟩, true)
          | some w =>
            if w.isFinite = false then (⟨w, ⟨d, q.vec.valid⟩, false, q.age⟩, false)
            else
              let norm := Real.sqrt (w.val * w.val + ∑ i, (d i).val * (d i).val)
              if norm ≤ epsilon then (⟨w, ⟨d, false⟩, false, q.age⟩, false)
              else (⟨.fin (w.val / norm), ⟨fun i => .fin ((d i).val / norm), true⟩, true, 1⟩, false)

/-- atlasconv.h 172-181 `Quaternion::toAtlas`. -/
def XQuat.toAtlas (q : XQuat) : Elem := .list [.float (q.vec.elem 0), .float (q.vec.elem 1), .float (q.vec.elem 2), .float q.w]

/-! ### AxisBox -/

/-- An AxisBox whose coordinates may be infinite or NaN. -/
@[ext] structure XBox (n : Nat) where
  low : XPt n
  high : XPt n

/-- A box. -/
def XBox.ofBox (b : Box n) : XBox n := ⟨XPt.ofPt b.low, XPt.ofPt b.high⟩
/-- axisbox.h 89 `isValid`. -/
def XBox.valid (b : XBox n) : Bool := b.low.valid && b.high.valid

/-- How the loop of `AxisBox::fromAtlas` ends. -/
inductive BoxLoop (n : Nat) where
  | done (b : XBox n)
  | returned (b : XBox n)
  | threw (b : XBox n)

/-- atlasconv.h 228-239: the loop for lists of `2 * dim` numbers. -/
noncomputable def boxLoop (l : List Elem) : List (Fin n) → XBox n → BoxLoop n
  | [], b => .done b
  | i :: is, b => match (l.getD i.val .none).num? with
    | Option.none => .threw b
    | some x =>
      let b := { b with low := ⟨Function.update b.low.elem i x, b.low.valid⟩ }
      if x.isFinite = false then .returned { b with low := ⟨b.low.elem, false⟩ }
      else match (l.getD (i.val + n) .none).num? with
        | Option.none => .threw b
        | some y =>
          let b := { b with high := ⟨Function.update b.high.elem i y, b.high.valid⟩ }
          if y.isFinite = false then .returned { b with high := ⟨b.high.elem, false⟩ }
          else boxLoop l is b

/-- atlasconv.h 247-253: exchange coordinates that are in the wrong order. -/
noncomputable def XBox.sort (b : XBox n) : XBox n :=
  ⟨⟨fun i => if (b.low.elem i).gt (b.high.elem i) then b.high.elem i else b.low.elem i, b.low.valid⟩,
   ⟨fun i => if (b.low.elem i).gt (b.high.elem i) then b.low.elem i else b.high.elem i, b.high.valid⟩⟩

/-- atlasconv.h 215-254 `AxisBox::fromAtlas`. -/
noncomputable def XBox.fromAtlas (b : XBox n) (a : Elem) : XBox n × Bool :=
  match a.list? with
  | Option.none => (b, true)
  | some l =>
    if l.length = n then
      match b.high.fromAtlas a with
      | (h, true) => (⟨⟨fun _ => .fin 0, true⟩, h⟩, true)
      | (h, false) => (XBox.sort ⟨⟨fun _ => .fin 0, true⟩, h⟩, false)
    else if l.length = 2 * n then
      match boxLoop l (List.finRange n) b with
      | .threw b => (b, true)
      | .returned b => (b, false)
      | .done b => (XBox.sort ⟨⟨b.low.elem, true⟩, ⟨b.high.elem, true⟩⟩, false)
    else (b, true)

open Classical in
/-- atlasconv.h 256-277 `AxisBox::toAtlas`, for finite boxes. -/
noncomputable def Box.toAtlas (b : Box n) : Elem :=
  if ∀ i, b.low.elem i = 0 then arrayToAtlas fun i => .fin (b.high.elem i)
  else .list (List.ofFn (fun i => .float (.fin (b.low.elem i))) ++ List.ofFn fun i => .float (.fin (b.high.elem i)))

/-! ### Ball -/

/-- A ball whose numbers may be infinite or NaN. -/
@[ext] structure XBall (n : Nat) where
  center : XPt n
  radius : XNum

/-- A ball. -/
def XBall.ofBall (b : Ball n) : XBall n := ⟨XPt.ofPt b.center, .fin b.radius⟩
/-- ball.h 90 `isValid`. -/
def XBall.valid (b : XBall n) : Bool := b.center.valid

/-- atlasconv.h 298-304: the part of `Ball::fromAtlas` about the position. -/
noncomputable def XBall.position (b : XBall n) (m : List (String × Elem)) : XBall n × Bool :=
  match Elem.find m "position" with
  | Option.none => (b, false)
  | some e => match e.list? with
    | Option.none => (b, false)
    | some _ => match b.center.fromAtlas e with
      | (c, t) => (⟨c, b.radius⟩, t)

/-- atlasconv.h 279-306 `Ball::fromAtlas`. -/
noncomputable def XBall.fromAtlas (b : XBall n) (a : Elem) : XBall n × Bool :=
  match a.map? with
  | Option.none => (b, false)
  | some m => match (Elem.find m "radius").bind Elem.num? with
    | Option.none => b.position m
    | some r => if r.isFinite = false then (⟨⟨b.center.elem, false⟩, r⟩, false) else XBall.position ⟨b.center, r⟩ m

/-- atlasconv.h 308-315 `Ball::toAtlas`. -/
def XBall.toAtlas (b : XBall n) : Elem := .map [("radius", .float b.radius), ("position", b.center.toAtlas)]

/-- atlasconv.h 317-322: the constructor from a message starts with the ball of radius 0 at the origin. -/
noncomputable def XBall.construct (n : Nat) (a : Elem) : XBall n × Bool := XBall.fromAtlas ⟨⟨fun _ => .fin 0, true⟩, .fin 0⟩ a

/-! ### Lines and polygons -/

/-- atlasconv.h 324-354, 364-373 `_ListNumCheck`, `_AddCorner`: the corner added for one entry of the list of points, if any. -/
noncomputable def cornerOf (n : Nat) (e : Elem) : Option (Pt n) :=
  match e.list? with
  | Option.none => Option.none
  | some l =>
    if l.length < n then Option.none
    else if (List.finRange n).all (fun i => ((l.getD i.val .none).num?).isSome) = false then Option.none
    else
      let x := fun i : Fin n => ((l.getD i.val .none).num?).getD .nan
      if (List.finRange n).all (fun i => (x i).isFinite) = false then Option.none
      else some ⟨fun i => (x i).val, true⟩

/-- atlasconv.h 356-376 `_CornersFromAtlas`: the corners are added at the end. -/
noncomputable def Corners.addFrom (ps : Corners n) (e : Elem) : Corners n :=
  match e.list? with
  | Option.none => ps
  | some l => ps ++ l.filterMap (cornerOf n)

/-- atlasconv.h 378-397 `Polygon<2>::fromAtlas` (`least` is 3) and 411-431 `Line::fromAtlas` (`least` is 1). -/
noncomputable def Corners.fromAtlas (least : Nat) (ps : Corners n) (a : Elem) : Corners n × Bool :=
  match a.map? with
  | some m => match Elem.find m "points" with
    | some e => match e.list? with
      | some _ => (ps.addFrom e, decide ((ps.addFrom e).length < least))
      | Option.none => (ps, true)
    | Option.none => (ps, true)
  | Option.none => match a.list? with
    | some _ => (ps.addFrom a, decide ((ps.addFrom a).length < least))
    | Option.none => (ps, true)

/-- atlasconv.h 378-397 `Polygon<2>::fromAtlas`: at least three corners (386, 392). -/
noncomputable def polygonFromAtlas (ps : Corners 2) (a : Elem) : Corners 2 × Bool := ps.fromAtlas 3 a

/-- atlasconv.h 411-431 `Line::fromAtlas`: at least one corner (420, 426). -/
noncomputable def lineFromAtlas (ps : Corners n) (a : Elem) : Corners n × Bool := ps.fromAtlas 1 a

/-- atlasconv.h 399-409 `Polygon<2>::toAtlas`, 433-444 `Line::toAtlas`. -/
def Corners.toAtlas (ps : Corners n) : Elem := .map [("points", .list (ps.map fun p => (XPt.ofPt p).toAtlas))]

/-! ### RotBox -/

/-- A RotBox whose numbers may be infinite or NaN (the orientation is never read from a message). -/
@[ext] structure XRBox (n : Nat) where
  corner : XPt n
  size : XPt n
  orient : RotMat n

/-- A rotated box. -/
def XRBox.ofRBox (r : RBox n) : XRBox n := ⟨XPt.ofPt r.corner, XPt.ofVec r.size, r.orient⟩
/-- rotbox.h `isValid`. -/
def XRBox.valid (r : XRBox n) : Bool := r.corner.valid && r.size.valid && r.orient.valid

/-- atlasconv.h 451-477 `RotBox::fromAtlas`; `junk` is the uninitialised point or vector that is read into. -/
noncomputable def XRBox.fromAtlas (junk : XPt n) (r : XRBox n) (a : Elem) : XRBox n × Bool :=
  match a.map? with
  | Option.none => (r, true)
  | some m => match Elem.find m "point" with
    | Option.none => (r, true)
    | some e => match junk.fromAtlas e with
      | (_, true) => (r, true)
      | (p, false) => match Elem.find m "size" with
        | Option.none => (r, true)
        | some e' => match junk.fromAtlas e' with
          | (_, true) => (r, true)
          | (v, false) => (⟨p, v, RotMat.identity⟩, false)

/-- atlasconv.h 479-487 `RotBox::toAtlas`. -/
def XRBox.toAtlas (r : XRBox n) : Elem := .map [("point", r.corner.toAtlas), ("size", r.size.toAtlas)]

end WFMath
