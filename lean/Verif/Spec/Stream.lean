/- Specification of texts of coordinate lists, and of what is assumed of the C++ library's number conversion. -/
import Verif.Model.Stream

namespace WFMath.Spec

/-- White space of the C locale: tab, line feed, vertical tab, form feed, carriage return and blank. -/
def white (c : Char) : Bool := decide (9 ≤ c.toNat ∧ c.toNat ≤ 13 ∨ c.toNat = 32)

/-- What is assumed of `<<` and `>>` on numbers: the text of `x`, at the end of the input or followed by a comma or a closing
parenthesis, is read back as `rnd x` (the number printed: `x` rounded to the digits of the stream) and nothing else
is consumed. -/
def PrintsBack (N : NumIO) (rnd : ℝ → ℝ) : Prop :=
  ∀ x rest, (∀ c, rest.head? = some c → c = ',' ∨ c = ')') → N.parse (N.fmt x ++ rest) = some (rnd x, rest)

/-- `xs`, separated by commas and ended by a parenthesis, is what `text` starts with, and `rest` is what follows. White space
may come before a comma or parenthesis (and before a number if the number reader allows it). -/
def Items (N : NumIO) : List ℝ → List Char → List Char → Prop
  | [], _, _ => False
  | x :: xs, text, rest => ∃ t, N.parse text = some (x, t) ∧
      if xs = [] then t.dropWhile white = ')' :: rest
      else ∃ t', t.dropWhile white = ',' :: t' ∧ Items N xs t' rest

/-- `text` starts with the list of `xs` in parentheses and `rest` is what follows. -/
def CoordText (N : NumIO) (xs : List ℝ) (text rest : List Char) : Prop :=
  ∃ t, text.dropWhile white = '(' :: t ∧ Items N xs t rest

end WFMath.Spec
