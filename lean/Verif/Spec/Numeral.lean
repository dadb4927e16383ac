/-
Specification: what it means for a text to be the canonical decimal numeral of a number.
Independent of the model.
-/
namespace WFMath.Spec

/-- Number read from a list of decimal digits, most significant first. -/
def digitsValue (cs : List Char) : Nat :=
  cs.foldl (fun acc c => 10 * acc + (c.toNat - '0'.toNat)) 0

/-- `cs` is the canonical decimal numeral of `n`: nonempty, only the digits 0-9, no leading zero
unless it is the single digit zero, and its value is `n`. -/
def IsDecimal (n : Nat) (cs : List Char) : Prop :=
  cs ≠ [] ∧ (∀ c ∈ cs, '0' ≤ c ∧ c ≤ '9') ∧ (cs.head? = some '0' → cs = ['0']) ∧ digitsValue cs = n

/-- Canonical signed numeral: a minus sign exactly for negative numbers, then the numeral of `|n|`. -/
def IsSignedDecimal (n : Int) (cs : List Char) : Prop :=
  if n < 0 then ∃ ds, cs = '-' :: ds ∧ IsDecimal n.natAbs ds else IsDecimal n.natAbs cs

end WFMath.Spec
