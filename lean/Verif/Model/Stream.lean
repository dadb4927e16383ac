/-
Model of `/repo/src/wfmath/stream.h` and `stream.cpp`: printing and parsing.

Text is a list of characters. The conversion between numbers and text is the C++ library's and is a parameter
(`NumIO`), about which theorems make an explicit assumption. An input stream is the text still to be read and the
fail flag. A failed extraction of a character leaves the variable as it was, which several loops depend on; the initial
contents of an uninitialised variable is the parameter `junk`.
-/
import Verif.Model.Polygon
import Verif.Model.MTRand

namespace WFMath
open MT (isSpace)
variable {n : Nat}

/-- `operator<<(ostream, double)` and `operator>>(istream, double)` of the C++ library: the text of a number, and the
number at the start of a text with the rest of the text, if there is one. -/
structure NumIO where
  fmt : ℝ → List Char
  parse : List Char → Option (ℝ × List Char)

/-- `std::istream`: the text to come, and the fail bit. -/
@[ext] structure IStream where
  rest : List Char
  fail : Bool

/-- How an extraction ends. `hang`: an endless loop. `outOfFuel`: the loop inside `_setVals` was cut short. `abort`: a failed
assertion. -/
inductive Read (α : Type) where
  | ok (a : α) (s : IStream)
  | parseError
  | hang
  | outOfFuel
  | abort

/-- Continue after a successful extraction. -/
def Read.bind {α β : Type} : Read α → (α → IStream → Read β) → Read β
  | .ok a s, f => f a s
  | .parseError, _ => .parseError
  | .hang, _ => .hang
  | .outOfFuel, _ => .outOfFuel
  | .abort, _ => .abort

/-- `is >> next` for a `char`: white space is skipped; on failure `next` keeps its value `prev`. -/
def getChar (prev : Char) (s : IStream) : Char × IStream :=
  if s.fail then (prev, s)
  else match s.rest.dropWhile isSpace with
    | [] => (prev, ⟨[], true⟩)
    | c :: r => (c, ⟨r, false⟩)

/-- `is >> x` for a `double`: the value read, `none` when nothing is stored because the stream had failed before (a
number that cannot be read stores 0). -/
def getNum (N : NumIO) (s : IStream) : Option ℝ × IStream :=
  if s.fail then (none, s)
  else match N.parse s.rest with
    | none => (some 0, ⟨s.rest, true⟩)
    | some (x, r) => (some x, ⟨r, false⟩)

/-- `next` and the stream after `k` rounds of `is >> next`. -/
def rounds (prev : Char) (s : IStream) (k : Nat) : Char × IStream := (fun p => getChar p.1 p.2)^[k] (prev, s)

open Classical in
/-- stream.h 202-204 (and alike) `do { is >> next; } while(!stop(next))`: the character that ended the loop and the stream,
or `none` when the loop never ends. -/
noncomputable def skipTo (stop : Char → Bool) (prev : Char) (s : IStream) : Option (Char × IStream) :=
  if h : ∃ k, stop (rounds prev s (k + 1)).1 = true then some (rounds prev s (Nat.find h + 1)) else none

/-! ### Coordinate lists -/

/-- stream.cpp 240-246 `WriteCoordList`, after the opening parenthesis: a number is followed by a comma, the last by a
parenthesis. -/
def writeItems (N : NumIO) : List ℝ → List Char
  | [] => []
  | x :: xs => N.fmt x ++ (if xs = [] then ')' else ',') :: writeItems N xs

/-- stream.cpp 240-246 `WriteCoordList`. -/
def writeCoords (N : NumIO) (d : Fin n → ℝ) : List Char := '(' :: writeItems N (List.ofFn d)

/-- stream.cpp 257-262: the loop of `ReadCoordList`; the first argument is the number of coordinates to come. A number that
could not be read is recorded as 0 (the call then always ends in an exception). -/
noncomputable def readItems (N : NumIO) : Nat → Char → IStream → Read (List ℝ)
  | 0, _, s => .ok [] s
  | k + 1, prev, s =>
    let r := getNum N s
    let c := getChar prev r.2
    if c.1 ≠ (if k = 0 then ')' else ',') then .parseError
    else (readItems N k c.1 c.2).bind fun xs s' => .ok (r.1.getD 0 :: xs) s'

/-- stream.cpp 248-263 `ReadCoordList`. -/
noncomputable def readCoords (N : NumIO) (junk : Char) (n : Nat) (s : IStream) : Read (Fin n → ℝ) :=
  let c := getChar junk s
  if c.1 ≠ '(' then .parseError
  else (readItems N n c.1 c.2).bind fun xs s' => .ok (fun i => xs.getD i.val 0) s'

/-- stream.h 115-120 `operator<<(ostream, Vector)`. -/
def Vec.print (N : NumIO) (v : Vec n) : List Char := writeCoords N v.elem
/-- stream.h 122-128 `operator>>(istream, Vector)`. -/
noncomputable def Vec.read (N : NumIO) (junk : Char) (n : Nat) (s : IStream) : Read (Vec n) :=
  (readCoords N junk n s).bind fun d s' => .ok ⟨d, true⟩ s'
/-- stream.h 168-173 `operator<<(ostream, Point)`. -/
def Pt.print (N : NumIO) (p : Pt n) : List Char := writeCoords N p.elem
/-- stream.h 175-181 `operator>>(istream, Point)`. -/
noncomputable def Pt.read (N : NumIO) (junk : Char) (n : Nat) (s : IStream) : Read (Pt n) :=
  (readCoords N junk n s).bind fun d s' => .ok ⟨d, true⟩ s'

/-! ### Rotation matrices -/

/-- stream.cpp 265-273 `GetEpsilon`: ten to the minus (precision - 1). -/
noncomputable def getEpsilon (prec : ℤ) : ℝ := (1 / 10) ^ (prec - 1).toNat

/-- stream.h 133-138: the rows after the opening parenthesis. -/
def writeRows (N : NumIO) : List (Fin n → ℝ) → List Char
  | [] => []
  | r :: rs => writeCoords N r ++ (if rs = [] then ')' else ',') :: writeRows N rs

/-- stream.h 130-141 `operator<<(ostream, RotMatrix)`. -/
def RotMat.print (N : NumIO) (m : RotMat n) : List Char := '(' :: writeRows N (List.ofFn fun i => m.elem i)

/-- stream.h 153-159: the loop over the rows. -/
noncomputable def readRows (N : NumIO) (junk : Char) (n : Nat) : Nat → Char → IStream → Read (List (Fin n → ℝ))
  | 0, _, s => .ok [] s
  | k + 1, prev, s => (readCoords N junk n s).bind fun row s1 =>
      let c := getChar prev s1
      if c.1 ≠ (if k = 0 then ')' else ',') then .parseError
      else (readRows N junk n k c.1 c.2).bind fun rows s' => .ok (row :: rows) s'

/-- stream.h 143-165 `operator>>(istream, RotMatrix)` into `m`; `prec` is the precision of the stream. -/
noncomputable def RotMat.read (L : Gauss.Limits) (fuel : Nat) (N : NumIO) (junk : Char) (prec : ℤ) (m : RotMat n) (s : IStream) :
    Read (RotMat n) :=
  let c := getChar junk s
  if c.1 ≠ '(' then .parseError
  else (readRows N junk n n c.1 c.2).bind fun rows s' =>
    match RotMat.setVals L fuel m (Matrix.of fun i j => rows.getD i.val 0 j) (floatMax epsilon (getEpsilon prec)) with
    | none => .outOfFuel
    | some (_, false) => .parseError
    | some (m', true) => .ok m' s'

/-! ### Shapes -/

/-- The text of a label: "AxisBox: m_low = " and so on. -/
def lblBoxLow : List Char := ['A','x','i','s','B','o','x',':',' ','m','_','l','o','w',' ','=',' ']
/-- See `lblBoxLow`. -/
def lblBoxHigh : List Char := [',',' ','m','_','h','i','g','h',' ','=',' ']
/-- See `lblBoxLow`. -/
def lblBallCenter : List Char := ['B','a','l','l',':',' ','m','_','c','e','n','t','e','r',' ','=',' ']
/-- See `lblBoxLow`. -/
def lblBallRadius : List Char := [',',' ','m','_','r','a','d','i','u','s',' ','=',' ']
/-- See `lblBoxLow`. -/
def lblSegP1 : List Char := ['S','e','g','m','e','n','t',':',' ','m','_','p','1',' ','=',' ']
/-- See `lblBoxLow`. -/
def lblSegP2 : List Char := [',',' ','m','_','p','2',' ','=',' ']
/-- See `lblBoxLow`. -/
def lblRBoxCorner : List Char := ['R','o','t','B','o','x',':',' ','m','_','c','o','r','n','e','r','0',' ','=',' ']
/-- See `lblBoxLow`. -/
def lblRBoxSize : List Char := [',',' ','m','_','s','i','z','e',' ','=',' ']
/-- See `lblBoxLow`. -/
def lblRBoxOrient : List Char := [',',' ','m','_','o','r','i','e','n','t',' ','=',' ']
/-- See `lblBoxLow`. -/
def lblEmpty : List Char := ['<','e','m','p','t','y','>']
/-- See `lblBoxLow`. -/
def lblPolygon : List Char := ['P','o','l','y','g','o','n',':',' ','(']
/-- See `lblBoxLow`. -/
def lblQuat : List Char := ['Q','u','a','t','e','r','n','i','o','n',':',' ','(']

/-- The loop condition `next != '='`. -/
def isEq (c : Char) : Bool := c == '='

/-- Continue after one of the `do ... while` loops. -/
def afterSkip {β : Type} (r : Option (Char × IStream)) (f : Char → IStream → Read β) : Read β :=
  match r with
  | none => .hang
  | some (c, s) => f c s

/-- stream.h 183-187 `operator<<(ostream, AxisBox)`. -/
def Box.print (N : NumIO) (b : Box n) : List Char := lblBoxLow ++ b.low.print N ++ lblBoxHigh ++ b.high.print N
/-- stream.h 189-207 `operator>>(istream, AxisBox)`. -/
noncomputable def Box.read (N : NumIO) (junk : Char) (n : Nat) (s : IStream) : Read (Box n) :=
  afterSkip (skipTo isEq junk s) fun c s =>
  (Pt.read N junk n s).bind fun low s =>
  afterSkip (skipTo isEq c s) fun _ s =>
  (Pt.read N junk n s).bind fun high s => .ok ⟨low, high⟩ s

/-- stream.h 209-214 `operator<<(ostream, Ball)`. -/
def Ball.print (N : NumIO) (b : Ball n) : List Char := lblBallCenter ++ b.center.print N ++ lblBallRadius ++ N.fmt b.radius
/-- stream.h 216-234 `operator>>(istream, Ball)` into `b`. -/
noncomputable def Ball.read (N : NumIO) (junk : Char) (b : Ball n) (s : IStream) : Read (Ball n) :=
  afterSkip (skipTo isEq junk s) fun c s =>
  (Pt.read N junk n s).bind fun center s =>
  afterSkip (skipTo isEq c s) fun _ s =>
  let r := getNum N s
  .ok ⟨center, r.1.getD b.radius⟩ r.2

/-- stream.h 236-240 `operator<<(ostream, Segment)`. -/
def Seg.print (N : NumIO) (g : Seg n) : List Char := lblSegP1 ++ g.p1.print N ++ lblSegP2 ++ g.p2.print N
/-- stream.h 242-260 `operator>>(istream, Segment)`. -/
noncomputable def Seg.read (N : NumIO) (junk : Char) (n : Nat) (s : IStream) : Read (Seg n) :=
  afterSkip (skipTo isEq junk s) fun c s =>
  (Pt.read N junk n s).bind fun p1 s =>
  afterSkip (skipTo isEq c s) fun _ s =>
  (Pt.read N junk n s).bind fun p2 s => .ok ⟨p1, p2⟩ s

/-- stream.h 262-268 `operator<<(ostream, RotBox)`. -/
def RBox.print (N : NumIO) (r : RBox n) : List Char :=
  lblRBoxCorner ++ r.corner.print N ++ lblRBoxSize ++ r.size.print N ++ lblRBoxOrient ++ r.orient.print N
/-- stream.h 270-294 `operator>>(istream, RotBox)` into `r`. -/
noncomputable def RBox.read (L : Gauss.Limits) (fuel : Nat) (N : NumIO) (junk : Char) (prec : ℤ) (r : RBox n) (s : IStream) :
    Read (RBox n) :=
  afterSkip (skipTo isEq junk s) fun c s =>
  (Pt.read N junk n s).bind fun corner s =>
  afterSkip (skipTo isEq c s) fun c s =>
  (Vec.read N junk n s).bind fun size s =>
  afterSkip (skipTo isEq c s) fun _ s =>
  (RotMat.read L fuel N junk prec r.orient s).bind fun orient s => .ok ⟨corner, size, orient⟩ s

/-! ### Polygons -/

/-- stream.cpp 292-294: the corners of a `Polygon<2>`, the last followed by a parenthesis. -/
def writeCorners (N : NumIO) : List (Pt n) → List Char
  | [] => []
  | p :: ps => p.print N ++ (if ps = [] then ')' else ',') :: writeCorners N ps

/-- stream.cpp 279-297 `operator<<(ostream, Polygon<2>)`. -/
def Corners.print (N : NumIO) (ps : Corners 2) : List Char := if ps = [] then lblEmpty else lblPolygon ++ writeCorners N ps

/-- stream.cpp 317-324 and 90-98: the loop over the corners, at most `fuel` of them. -/
noncomputable def readCorners (N : NumIO) (junk : Char) (n : Nat) : Nat → Char → IStream → Read (List (Pt n))
  | 0, _, _ => .outOfFuel
  | fuel + 1, prev, s => (Pt.read N junk n s).bind fun p s1 =>
      let c := getChar prev s1
      if c.1 = ')' then .ok [p] c.2
      else if c.1 ≠ ',' then .parseError
      else (readCorners N junk n fuel c.1 c.2).bind fun ps s' => .ok (p :: ps) s'

/-- The end of the first loop of a polygon reader: an opening parenthesis or a `<`. -/
def isOpen (c : Char) : Bool := c == '<' || c == '('
/-- The end of the text of an empty polygon. -/
def isClose (c : Char) : Bool := c == '>'

/-- stream.cpp 299-325 `operator>>(istream, Polygon<2>)`. -/
noncomputable def Corners.read (fuel : Nat) (N : NumIO) (junk : Char) (s : IStream) : Read (Corners 2) :=
  afterSkip (skipTo isOpen junk s) fun c s =>
  if c = '<' then afterSkip (skipTo isClose c s) fun _ s => .ok [] s
  else readCorners N junk 2 fuel c s

/-- stream.cpp 196-200: the corners of a `Polygon<dim>` (and, stream.h 315-316, of a `Line<dim>`): corner number `i` is
followed by a comma when `i < dim - 1`, by a parenthesis otherwise. -/
def writeCornersDim (N : NumIO) : Nat → List (Pt n) → List Char
  | _, [] => []
  | i, p :: ps => p.print N ++ (if i < n - 1 then ',' else ')') :: writeCornersDim N (i + 1) ps

/-- stream.cpp 186-203 `operator<<(ostream, Polygon<dim>)`; `none`: a failed assertion in `getCorner`. -/
noncomputable def Poly.print (N : NumIO) (s : Poly n) : Option (List Char) :=
  if s.numCorners = 0 then some lblEmpty
  else ((List.range s.numCorners).mapM s.getCorner).map fun ps => lblPolygon ++ writeCornersDim N 0 ps

/-- Search for the first element with the largest `f`, above `d`. stream.cpp 124-132, 140-151. -/
noncomputable def pickBest {α : Type} (f : α → ℝ) : List α → ℝ → Option α → Option α
  | [], _, b => b
  | x :: xs, d, b => if f x > d then pickBest f xs (f x) (some x) else pickBest f xs d b

/-- stream.cpp 124-125: the pairs `i < j` in the order of the two loops. -/
def pairsBelow (k : Nat) : List (Nat × Nat) :=
  (List.range k).flatMap fun i => ((List.range k).filter fun j => i < j).map fun j => (i, j)

/-- stream.cpp 117-172: the order in which the points read are added to the plane; `none`: a failed assertion. -/
noncomputable def polyOrder (ps : List (Pt 3)) : Option (List Nat) :=
  let at' := fun i => ps.getD i Pt.default
  if ps.length < 3 then some (List.range ps.length)
  else match pickBest (fun q : Nat × Nat => (at' q.1).sloppyDist3 (at' q.2)) (pairsBelow ps.length) (-1) none with
    | none => none
    | some (p1, p2) =>
      match pickBest (fun i => floatMin ((at' i).sloppyDist3 (at' p1)) ((at' i).sloppyDist3 (at' p2)))
          ((List.range ps.length).filter fun i => i ≠ p1 ∧ i ≠ p2) (-1) none with
      | none => none
      | some p3 => some (p1 :: p2 :: p3 :: (List.range ps.length).filter fun i => i ≠ p1 ∧ i ≠ p2 ∧ i ≠ p3)

/-- stream.cpp 117-172: add the points in the given order; the plane and the plane points by index, or `none` when a point
does not fit. -/
noncomputable def expandAll (ps : List (Pt 3)) (eps : ℝ) : List Nat → Orient 3 → (Nat → Pt 2) → Option (Orient 3 × (Nat → Pt 2))
  | [], o, f => some (o, f)
  | i :: is, o, f => match o.expand (ps.getD i Pt.default) eps with
    | (true, o', p) => expandAll ps eps is o' (Function.update f i p)
    | (false, _, _) => none

/-- stream.cpp 69-184 `operator>>(istream, Polygon<3>)` into `r`. The first three points are asserted to fit; that this is
so is proved, and a point that does not fit is reported as `parseError` throughout. -/
noncomputable def Poly.read (fuel : Nat) (N : NumIO) (junk : Char) (prec : ℤ) (r : Poly 3) (s : IStream) : Read (Poly 3) :=
  afterSkip (skipTo isOpen junk s) fun c s =>
  if c = '<' then afterSkip (skipTo isClose c s) fun _ s => .ok r s
  else (readCorners N junk 3 fuel c s).bind fun ps s =>
    match polyOrder ps with
    | none => .abort
    | some order =>
      match expandAll ps (floatMax (getEpsilon prec) epsilon) order Orient.empty (fun _ => Pt.default) with
      | none => .parseError
      | some (o, f) => .ok ⟨o, (List.range ps.length).map f⟩ s

/-! ### Quaternions -/

/-- stream.cpp 327-330 `operator<<(ostream, Quaternion)`. -/
def Quat.print (N : NumIO) (q : Quat) : List Char := lblQuat ++ N.fmt q.w ++ ',' :: q.vec.print N ++ [')']

/-- The loop condition `next != '('`. -/
def isParen (c : Char) : Bool := c == '('

/-- stream.cpp 332-360 `operator>>(istream, Quaternion)` into `q`; division by a zero norm gives 0 here (NaN in C++). -/
noncomputable def Quat.read (N : NumIO) (junk : Char) (q : Quat) (s : IStream) : Read Quat :=
  afterSkip (skipTo isParen junk s) fun c s =>
  let r := getNum N s
  let w := r.1.getD q.w
  let c := getChar c r.2
  if c.1 ≠ ',' then .parseError
  else (Vec.read N junk 3 c.2).bind fun v s =>
    let norm := Real.sqrt (w * w + v.sqrMag)
    let c := getChar c.1 s
    if c.1 ≠ ')' then .parseError
    else .ok ⟨w / norm, v.divBy norm, true, q.age⟩ c.2

/-- stream.cpp 50-58 and stream.h 102-107 `FromString`: the text is read from a fresh stream with precision 6, whatever
precision the caller asked for. -/
noncomputable def fromString {α : Type} (read : ℤ → IStream → Read α) (text : List Char) (_precision : ℤ) : Read α :=
  read 6 ⟨text, false⟩

end WFMath
