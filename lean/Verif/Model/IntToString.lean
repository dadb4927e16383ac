/-
Model of `/repo/src/wfmath/int_to_string.cpp`.

`unsigned long` and `long` are 64 bits wide (LP64, the non-MSVC branch of the file).
The local `char buffer[bufsize]` is filled from its end towards its start through `*(--bufhead) = c`.
It is modelled by the list of characters between `bufhead` and the end of the buffer; a write that
would leave the buffer is the distinct outcome `none`.
-/
import Mathlib.Data.Rat.Floor
import Mathlib.Tactic.NormNum

namespace WFMath.IntToString

/-- int_to_string.cpp 15: `const char digits[10]`. -/
def digitTable : List Char := ['0', '1', '2', '3', '4', '5', '6', '7', '8', '9']

/-- `*(--bufhead) = c` into a buffer of `cap` bytes (int_to_string.cpp 17, 20, 22, 75).
`buf` holds the bytes already written, first byte at `bufhead`. `none`: write before the buffer. -/
def put (cap : Nat) (buf : List Char) (c : Char) : Option (List Char) :=
  if buf.length < cap then some (c :: buf) else none

/-- int_to_string.cpp 21-24: the `do { ... } while(val)` loop. `%` and `/` are unsigned 64-bit. -/
def digitLoop (cap : Nat) (val : BitVec 64) (buf : List Char) : Option (List Char) :=
  match digitTable[(val % 10#64).toNat]? with
  | none => none
  | some d =>
    match put cap buf d with
    | none => none
    | some buf' =>
      if _h : val / 10#64 = 0#64 then some buf'
      else digitLoop cap (val / 10#64) buf'
termination_by val.toNat
decreasing_by
  have h1 : (val / 10#64).toNat ≠ 0 := by
    intro h0; exact _h (BitVec.eq_of_toNat_eq (by simpa using h0))
  rw [BitVec.toNat_udiv] at h1 ⊢
  simp at h1 ⊢
  omega

/-- int_to_string.cpp 12-27 `DoIntToString`: `bufhead` starts at the end of a buffer of `cap` bytes. -/
def doIntToString (cap : Nat) (val : BitVec 64) : Option (List Char) :=
  match put cap [] '\x00' with
  | none => none
  | some buf => if val = 0#64 then put cap buf '0' else digitLoop cap val buf

/-- int_to_string.cpp 31-36 `ul_max_digits`: conversion of a positive `double` constant to `unsigned`
truncates. Evaluated in exact rational arithmetic (the value is 20.27, far from an integer, so
rounding of the constant expression does not matter). -/
def ulMaxDigits : Nat :=
  ⌊(8 * 8 * (30102995664 / 100000000000) + 1 + 30 / 2 ^ 52 : ℚ)⌋₊

/-- Conversion of a `char*` to `std::string` (int_to_string.cpp 46, 77): bytes up to the first NUL.
`none` if there is no terminator in the buffer (read past the end). -/
def cString (buf : List Char) : Option (List Char) :=
  if '\x00' ∈ buf then some (buf.takeWhile (· ≠ '\x00')) else none

/-- int_to_string.cpp 41-47 `IntToString(unsigned long)`. -/
def intToStringU (val : BitVec 64) : Option (List Char) :=
  (doIntToString (ulMaxDigits + 1) val).bind cString

/-- `LONG_MAX` on LP64. -/
def longMax : Int := 2 ^ 63 - 1

/-- Value of a signed 64-bit expression, `none` on signed overflow (undefined behaviour). -/
def asLong (x : Int) : Option Int := if -(2 ^ 63) ≤ x ∧ x ≤ longMax then some x else none

/-- int_to_string.cpp 52-65 `SafeAbs`, the `#else` branch taken when `LONG_MAX + LONG_MIN < 0`.
Conversions to `unsigned long` reduce modulo 2^64 (`BitVec.ofInt`); every signed operation is
checked for overflow. -/
def safeAbs (val : Int) : Option (BitVec 64) :=
  if val ≥ 0 then some (BitVec.ofInt 64 val)
  else if val ≥ -longMax then (asLong (-val)).map (BitVec.ofInt 64)
  else
    (asLong (longMax + val)).bind fun s =>
      (asLong (-s)).map fun t => BitVec.ofInt 64 longMax + BitVec.ofInt 64 t

/-- int_to_string.cpp 67-78 `IntToString(long)`. The argument is the mathematical value of the
64-bit signed `long`. -/
def intToStringS (val : Int) : Option (List Char) :=
  (safeAbs val).bind fun a =>
    (doIntToString (ulMaxDigits + 2) a).bind fun buf =>
      if val < 0 then (put (ulMaxDigits + 2) buf '-').bind cString else cString buf

end WFMath.IntToString
