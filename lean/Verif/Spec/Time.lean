/-
Specification of time values: a time is a whole number of microseconds, or "no value".
A client program acts on a store of such numbers by plain integer arithmetic.
-/
import Verif.Model.Time

namespace WFMath.Spec
open WFMath.Time

/-- The microseconds denoted by a (seconds, microseconds) pair. -/
def micros (sec usec : Int) : Int := 1000000 * sec + usec

/-- Meaning of a time difference: `none` when invalid. -/
def diffMeaning (d : TimeDiff) : Option Int := if d.valid then some (micros d.sec d.usec) else none
/-- Meaning of a time stamp: `none` when invalid. -/
def stampMeaning (t : TimeStamp) : Option Int := if t.valid then some (micros t.sec t.usec) else none

/-- The microsecond part is a proper fraction of a second. -/
def Normal (usec : Int) : Prop := 0 ≤ usec ∧ usec < 1000000

/-- Arithmetic with "no value" contagious. -/
def oadd (a b : Option Int) : Option Int := a.bind fun x => b.map fun y => x + y
def osub (a b : Option Int) : Option Int := a.bind fun x => b.map fun y => x - y

/-- Abstract store: microsecond counts. -/
structure AStore where
  stamp : Nat → Option Int
  tdiff : Nat → Option Int

/-- Abstract effect of a client statement: integer arithmetic on microseconds. The value of
`TimeDiff(msec)` is left to the parameter `ms`. -/
def astep (ms : Int → Int) (s : AStore) : Op → AStore
  | .dDefault i _ _ => { s with tdiff := setAt s.tdiff i none }
  | .dMillis i m => { s with tdiff := setAt s.tdiff i (some (ms m)) }
  | .dAddAssign i j => { s with tdiff := setAt s.tdiff i (oadd (s.tdiff i) (s.tdiff j)) }
  | .dSubAssign i j => { s with tdiff := setAt s.tdiff i (osub (s.tdiff i) (s.tdiff j)) }
  | .dAdd i j k => { s with tdiff := setAt s.tdiff i (oadd (s.tdiff j) (s.tdiff k)) }
  | .dSub i j k => { s with tdiff := setAt s.tdiff i (osub (s.tdiff j) (s.tdiff k)) }
  | .dNeg i j => { s with tdiff := setAt s.tdiff i ((s.tdiff j).map (- ·)) }
  | .tDefault i => { s with stamp := setAt s.stamp i none }
  | .tEpoch i => { s with stamp := setAt s.stamp i (some 0) }
  | .tNow i cs cu _ => { s with stamp := setAt s.stamp i (some (micros cs cu)) }
  | .tAddAssign i j => { s with stamp := setAt s.stamp i (oadd (s.stamp i) (s.tdiff j)) }
  | .tSubAssign i j => { s with stamp := setAt s.stamp i (osub (s.stamp i) (s.tdiff j)) }
  | .tAdd i j k => { s with stamp := setAt s.stamp i (oadd (s.stamp j) (s.tdiff k)) }
  | .tSub i j k => { s with stamp := setAt s.stamp i (osub (s.stamp j) (s.tdiff k)) }
  | .tDiff i j k => { s with tdiff := setAt s.tdiff i (osub (s.stamp j) (s.stamp k)) }

def arun (ms : Int → Int) (s : AStore) (ops : List Op) : AStore := ops.foldl (astep ms) s

/-- Meaning of a concrete store. -/
def storeMeaning (s : Store) : AStore :=
  ⟨fun i => stampMeaning (s.stamp i), fun i => diffMeaning (s.tdiff i)⟩

end WFMath.Spec
