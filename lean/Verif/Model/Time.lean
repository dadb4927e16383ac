/-
Model of `/repo/src/wfmath/timestamp.h` and `timestamp.cpp`.

`long` and `time_t` are unbounded integers (the code documents that it does not check for overflow).
C++ `/` and `%` truncate towards zero: `Int.tdiv`, `Int.tmod`.
-/
import Mathlib.Tactic.NormNum
import Mathlib.Data.Int.Init

namespace WFMath.Time

/-- timestamp.cpp 43 `Million`. -/
def million : Int := 1000000

/-- timestamp.cpp 45-58 `regularize`. -/
def regularize (sec usec : Int) : Int × Int :=
  if usec ≥ million then (sec + 1, usec - million)
  else if usec < 0 then (sec - 1, usec + million)
  else (sec, usec)

/-- timestamp.h 52-104 `class TimeDiff`. -/
structure TimeDiff where
  valid : Bool
  sec : Int
  usec : Int
deriving DecidableEq

/-- timestamp.h 117-161 `class TimeStamp`. -/
structure TimeStamp where
  sec : Int
  usec : Int
  valid : Bool
deriving DecidableEq

/-- timestamp.cpp 62-67 private constructor. -/
def TimeDiff.mk3 (sec usec : Int) (valid : Bool) : TimeDiff :=
  if valid then
    let r := regularize sec usec
    ⟨valid, r.1, r.2⟩
  else ⟨valid, sec, usec⟩

/-- timestamp.cpp 167-175 private constructor. -/
def TimeStamp.mk3 (sec usec : Int) (valid : Bool) : TimeStamp :=
  if valid then
    let r := regularize sec usec
    ⟨r.1, r.2, valid⟩
  else ⟨sec, usec, valid⟩

/-- timestamp.cpp 69-79 `TimeDiff(long msec)`. -/
def TimeDiff.ofMillis (msec : Int) : TimeDiff :=
  let sec := Int.tdiv msec 1000
  let usec := Int.tmod msec 1000
  if msec < 0 then
    if usec < 0 then ⟨true, sec - 1, usec + million⟩ else ⟨true, sec - 1, usec⟩
  else ⟨true, sec, usec⟩

/-- timestamp.cpp 81-84. -/
def TimeDiff.milliseconds (d : TimeDiff) : Int := d.sec * 1000 + Int.tdiv d.usec 1000

/-- timestamp.h 69 `full_time`. -/
def TimeDiff.fullTime (d : TimeDiff) : Int × Int := (d.sec, d.usec)

/-- timestamp.cpp 86-96 `operator+=`. -/
def TimeDiff.addAssign (v d : TimeDiff) : TimeDiff :=
  let sec := v.sec + d.sec
  let usec := v.usec + d.usec
  let valid := v.valid && d.valid
  if valid then let r := regularize sec usec; ⟨valid, r.1, r.2⟩ else ⟨valid, sec, usec⟩

/-- timestamp.cpp 98-108 `operator-=`. -/
def TimeDiff.subAssign (v d : TimeDiff) : TimeDiff :=
  let sec := v.sec - d.sec
  let usec := v.usec - d.usec
  let valid := v.valid && d.valid
  if valid then let r := regularize sec usec; ⟨valid, r.1, r.2⟩ else ⟨valid, sec, usec⟩

/-- timestamp.cpp 110-113 `operator+`. -/
def TimeDiff.add (a b : TimeDiff) : TimeDiff :=
  .mk3 (a.sec + b.sec) (a.usec + b.usec) (a.valid && b.valid)

/-- timestamp.cpp 115-118 `operator-`. -/
def TimeDiff.sub (a b : TimeDiff) : TimeDiff :=
  .mk3 (a.sec - b.sec) (a.usec - b.usec) (a.valid && b.valid)

/-- timestamp.h 80 unary minus. -/
def TimeDiff.neg (a : TimeDiff) : TimeDiff := .mk3 (-a.sec) (-a.usec) a.valid

/-- timestamp.cpp 120-123 `operator<`. -/
def TimeDiff.lt (a b : TimeDiff) : Bool :=
  decide (a.sec < b.sec) || (decide (a.sec = b.sec) && decide (a.usec < b.usec))

/-- timestamp.cpp 125-128 `operator==`. -/
def TimeDiff.eq (a b : TimeDiff) : Bool := decide (a.sec = b.sec) && decide (a.usec = b.usec)

/-- timestamp.h 106-109. -/
def TimeDiff.gt (a b : TimeDiff) : Bool := b.lt a
def TimeDiff.le (a b : TimeDiff) : Bool := !b.lt a
def TimeDiff.ge (a b : TimeDiff) : Bool := !a.lt b
def TimeDiff.ne (a b : TimeDiff) : Bool := !b.eq a

/-- timestamp.cpp 154-163. -/
def TimeStamp.epochStart : TimeStamp := ⟨0, 0, true⟩

/-- timestamp.cpp 130-152 `now()`; the operating system's clock reading is a parameter. -/
def TimeStamp.now (clockSec clockUsec : Int) : TimeStamp := ⟨clockSec, clockUsec, true⟩

/-- timestamp.cpp 176-182 `operator<`. -/
def TimeStamp.lt (a b : TimeStamp) : Bool :=
  if a.sec = b.sec then decide (a.usec < b.usec) else decide (a.sec < b.sec)

/-- timestamp.cpp 184-188 `operator==`. -/
def TimeStamp.eq (a b : TimeStamp) : Bool := decide (a.sec = b.sec) && decide (a.usec = b.usec)

/-- timestamp.h 165-168. -/
def TimeStamp.gt (a b : TimeStamp) : Bool := b.lt a
def TimeStamp.le (a b : TimeStamp) : Bool := !b.lt a
def TimeStamp.ge (a b : TimeStamp) : Bool := !a.lt b
def TimeStamp.ne (a b : TimeStamp) : Bool := !b.eq a

/-- timestamp.cpp 190-199 `operator+=`. -/
def TimeStamp.addAssign (a : TimeStamp) (d : TimeDiff) : TimeStamp :=
  let sec := a.sec + d.sec
  let usec := a.usec + d.usec
  let valid := a.valid && d.valid
  if valid then let r := regularize sec usec; ⟨r.1, r.2, valid⟩ else ⟨sec, usec, valid⟩

/-- timestamp.cpp 201-210 `operator-=`. -/
def TimeStamp.subAssign (a : TimeStamp) (d : TimeDiff) : TimeStamp :=
  let sec := a.sec - d.sec
  let usec := a.usec - d.usec
  let valid := a.valid && d.valid
  if valid then let r := regularize sec usec; ⟨r.1, r.2, valid⟩ else ⟨sec, usec, valid⟩

/-- timestamp.cpp 212-216 (and timestamp.h 163 with the arguments exchanged). -/
def TimeStamp.add (a : TimeStamp) (d : TimeDiff) : TimeStamp :=
  .mk3 (a.sec + d.sec) (a.usec + d.usec) (a.valid && d.valid)

/-- timestamp.cpp 218-222. -/
def TimeStamp.sub (a : TimeStamp) (d : TimeDiff) : TimeStamp :=
  .mk3 (a.sec - d.sec) (a.usec - d.usec) (a.valid && d.valid)

/-- timestamp.cpp 224-228 `TimeStamp - TimeStamp`. -/
def TimeStamp.diff (a b : TimeStamp) : TimeDiff :=
  .mk3 (a.sec - b.sec) (a.usec - b.usec) (a.valid && b.valid)

/-! ### Histories: a client program over variables holding time values -/

/-- Variables of a client program. -/
structure Store where
  stamp : Nat → TimeStamp
  tdiff : Nat → TimeDiff

def setAt {α : Type} (f : Nat → α) (i : Nat) (a : α) : Nat → α := fun j => if j = i then a else f j

/-- One statement of a client program: every public operation that produces a time value. -/
inductive Op where
  /-- `TimeDiff d_i;` the seconds and microseconds are uninitialised memory. -/
  | dDefault (i : Nat) (garbageSec garbageUsec : Int)
  | dMillis (i : Nat) (msec : Int)
  | dAddAssign (i j : Nat)
  | dSubAssign (i j : Nat)
  | dAdd (i j k : Nat)
  | dSub (i j k : Nat)
  | dNeg (i j : Nat)
  /-- `TimeStamp t_i;` zero initialised but invalid (timestamp.h 128, 134). -/
  | tDefault (i : Nat)
  | tEpoch (i : Nat)
  /-- `t_i = TimeStamp::now()`, the clock reading has `0 ≤ usec < 1000000` (POSIX `gettimeofday`). -/
  | tNow (i : Nat) (clockSec : Int) (clockUsec : Nat) (h : clockUsec < 1000000)
  | tAddAssign (i j : Nat)
  | tSubAssign (i j : Nat)
  | tAdd (i j k : Nat)
  | tSub (i j k : Nat)
  | tDiff (i j k : Nat)

/-- Effect of one statement. -/
def step (s : Store) : Op → Store
  | .dDefault i a b => { s with tdiff := setAt s.tdiff i ⟨false, a, b⟩ }
  | .dMillis i m => { s with tdiff := setAt s.tdiff i (.ofMillis m) }
  | .dAddAssign i j => { s with tdiff := setAt s.tdiff i ((s.tdiff i).addAssign (s.tdiff j)) }
  | .dSubAssign i j => { s with tdiff := setAt s.tdiff i ((s.tdiff i).subAssign (s.tdiff j)) }
  | .dAdd i j k => { s with tdiff := setAt s.tdiff i ((s.tdiff j).add (s.tdiff k)) }
  | .dSub i j k => { s with tdiff := setAt s.tdiff i ((s.tdiff j).sub (s.tdiff k)) }
  | .dNeg i j => { s with tdiff := setAt s.tdiff i (s.tdiff j).neg }
  | .tDefault i => { s with stamp := setAt s.stamp i ⟨0, 0, false⟩ }
  | .tEpoch i => { s with stamp := setAt s.stamp i .epochStart }
  | .tNow i cs cu _ => { s with stamp := setAt s.stamp i (.now cs cu) }
  | .tAddAssign i j => { s with stamp := setAt s.stamp i ((s.stamp i).addAssign (s.tdiff j)) }
  | .tSubAssign i j => { s with stamp := setAt s.stamp i ((s.stamp i).subAssign (s.tdiff j)) }
  | .tAdd i j k => { s with stamp := setAt s.stamp i ((s.stamp j).add (s.tdiff k)) }
  | .tSub i j k => { s with stamp := setAt s.stamp i ((s.stamp j).sub (s.tdiff k)) }
  | .tDiff i j k => { s with tdiff := setAt s.tdiff i ((s.stamp j).diff (s.stamp k)) }

/-- All variables default constructed. -/
def Store.init : Store := ⟨fun _ => ⟨0, 0, false⟩, fun _ => ⟨false, 0, 0⟩⟩

def run (s : Store) (ops : List Op) : Store := ops.foldl step s

end WFMath.Time
