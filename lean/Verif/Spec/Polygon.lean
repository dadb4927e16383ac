/- Specification of corner lists, independent of the model: a length and the corner at each index. -/
import Verif.Model.Point

namespace WFMath.Spec

/-- One edit of a corner list. -/
inductive Edit (n : Nat) where
  | add (i : Nat) (p : Pt n)
  | remove (i : Nat)
  | move (i : Nat) (p : Pt n)

/-- How many corners there are, and which one is at each index below that. -/
structure Indexed (n : Nat) where
  count : Nat
  corner : Nat → Pt n

/-- What an edit does: `add` puts the point before index `i`, `remove` closes the gap, `move` replaces; `none` when the
index is out of range. -/
def Indexed.edit {n : Nat} (s : Indexed n) : Edit n → Option (Indexed n)
  | .add i p => if i ≤ s.count then
      some ⟨s.count + 1, fun j => if j < i then s.corner j else if j = i then p else s.corner (j - 1)⟩ else none
  | .remove i => if i < s.count then some ⟨s.count - 1, fun j => if j < i then s.corner j else s.corner (j + 1)⟩ else none
  | .move i p => if i < s.count then some ⟨s.count, fun j => if j = i then p else s.corner j⟩ else none

/-- A history of edits. -/
def Indexed.edits {n : Nat} : Indexed n → List (Edit n) → Option (Indexed n)
  | s, [] => some s
  | s, e :: es => (s.edit e).bind fun t => t.edits es

/-- The list with `p` put before index `i`. -/
def insertAt {α : Type} (l : List α) (i : Nat) (p : α) : List α := l.take i ++ p :: l.drop i

end WFMath.Spec
