/-
Model of `/repo/src/wfmath/shuffle.h`.
-/
import Mathlib.Logic.Equiv.Basic

namespace WFMath.Shuffle

/-- shuffle.h 54-61, the loop body for a given `pos` and the number `newPos` returned by
`MTRand::instance.randInt(pos)`: exchange two elements unless they are the same.
`none`: an index outside the vector. -/
def swapStep {n : Nat} {α : Type} (v : Fin n → α) (pos newPos : Nat) : Option (Fin n → α) :=
  if newPos = pos then some v
  else if h : pos < n ∧ newPos < n then
    let tmp := v ⟨pos, h.1⟩
    let v1 := Function.update v ⟨pos, h.1⟩ (v ⟨newPos, h.2⟩)
    some (Function.update v1 ⟨newPos, h.2⟩ tmp)
  else none

/-- shuffle.h 54-61 `while(--pos) { ... }` entered with `pos = m` (`m ≥ 1`). `rnd pos` is what the
generator returns when asked for a number at most `pos`. -/
def shuffleLoop {n : Nat} {α : Type} (rnd : Nat → Nat) : Nat → (Fin n → α) → Option (Fin n → α)
  | 0, v => some v
  | 1, v => some v
  | m + 2, v => (swapStep v (m + 1) (rnd (m + 1))).bind (shuffleLoop rnd (m + 1))

/-- shuffle.h 39-62 `Shuffle` on a vector of `n` elements. -/
def shuffle {n : Nat} {α : Type} (rnd : Nat → Nat) (v : Fin n → α) : Option (Fin n → α) :=
  if n = 0 then some v else shuffleLoop rnd n v

/-- The contract of `randInt(uint32)` (C11): at most its argument. The argument is the position
converted from `size_type` to `uint32` (shuffle.h 55), so it is reduced modulo `2^32`. -/
def ValidChoices (n : Nat) (rnd : Nat → Nat) : Prop := ∀ pos, 0 < pos → pos < n → rnd pos ≤ pos % 2 ^ 32

end WFMath.Shuffle
