/-
Specification of the Mersenne Twister MT19937 as published (Matsumoto, Nishimura): a linear
recurrence on an infinite word sequence, and the standard initialisation by a seed.
Nothing here mentions the table, the index or the block-wise regeneration.
-/
import Mathlib.Init

namespace WFMath.Spec

/-- Upper bit of `a` joined with the lower 31 bits of `b`. -/
def joinUL (a b : BitVec 32) : BitVec 32 := (a &&& 0x80000000#32) ||| (b &&& 0x7fffffff#32)

/-- Multiplication by the companion matrix `A`. -/
def twistA (y : BitVec 32) : BitVec 32 :=
  if y.getLsbD 0 then (y >>> 1) ^^^ 0x9908b0df#32 else y >>> 1

/-- The recurrence `x (k+n) = x (k+m) xor (upper (x k) | lower (x (k+1))) A`, `n = 624`, `m = 397`. -/
def IsMTSequence (x : Nat → BitVec 32) : Prop :=
  ∀ k, x (k + 624) = x (k + 397) ^^^ twistA (joinUL (x k) (x (k + 1)))

/-- Standard initialisation with a 32-bit seed. -/
def IsSeeded (s : BitVec 32) (x : Nat → BitVec 32) : Prop :=
  x 0 = s ∧ ∀ i, i < 623 →
    x (i + 1) = 1812433253#32 * (x i ^^^ (x i >>> 30)) + BitVec.ofNat 32 (i + 1)

/-- Tempering. -/
def temper (y : BitVec 32) : BitVec 32 :=
  let y1 := y ^^^ (y >>> 11)
  let y2 := y1 ^^^ ((y1 <<< 7) &&& 0x9d2c5680#32)
  let y3 := y2 ^^^ ((y2 <<< 15) &&& 0xefc60000#32)
  y3 ^^^ (y3 >>> 18)

/-- The sequence that continues given first 624 words (shows that `IsMTSequence` is satisfiable from
every start). -/
def mtSequence (init : Nat → BitVec 32) (k : Nat) : BitVec 32 :=
  if k < 624 then init k
  else mtSequence init (k - 624 + 397) ^^^
    twistA (joinUL (mtSequence init (k - 624)) (mtSequence init (k - 624 + 1)))
termination_by k

/-- First 624 words from a seed. -/
def seedWords (s : BitVec 32) : Nat → BitVec 32
  | 0 => s
  | i + 1 => 1812433253#32 * (seedWords s i ^^^ (seedWords s i >>> 30)) + BitVec.ofNat 32 (i + 1)

/-- The MT19937 sequence of a seed; its tempered output begins at position 624. -/
def mt19937 (s : BitVec 32) : Nat → BitVec 32 := mtSequence (seedWords s)

end WFMath.Spec

namespace WFMath.Spec

/-- Initialisation by an array `key` of `L > 0` words (Matsumoto, Nishimura 2002), written as one
recurrence over the words produced, in order of production, with no table: the word produced at
step `t` replaces the word produced 623 steps before and also depends on the word produced just
before. The first `K = max 624 L` steps mix in the key, the following 623 steps do not.
`arrayWords key n` for `n < 623` are the words 1..623 of the table seeded with 19650218; the word
produced at step `t` is `arrayWords key (t + 623)`. -/
def arrayWords (key : List (BitVec 32)) (n : Nat) : BitVec 32 :=
  if n < 623 then seedWords 19650218 (n + 1)
  else
    let t := n - 623
    let old := arrayWords key (n - 623)
    let prev := if n = 623 then seedWords 19650218 0 else arrayWords key (n - 1)
    let mix := prev ^^^ (prev >>> 30)
    if t < max 624 key.length then
      (old ^^^ (mix * 1664525#32)) + (key[t % key.length]?.getD 0 + BitVec.ofNat 32 (t % key.length))
    else
      (old ^^^ (mix * 1566083941#32)) - BitVec.ofNat 32 (1 + t % 623)
termination_by n

/-- The first 624 words of the sequence of a generator initialised by `key`: word 0 is `2^31`, word
`1 + r` is the word produced at the step `t ≡ r (mod 623)` of the last 623 steps. -/
def IsArraySeeded (key : List (BitVec 32)) (x : Nat → BitVec 32) : Prop :=
  x 0 = 0x80000000#32 ∧ ∀ t, max 624 key.length ≤ t → t < max 624 key.length + 623 →
    x (1 + t % 623) = arrayWords key (t + 623)

end WFMath.Spec
