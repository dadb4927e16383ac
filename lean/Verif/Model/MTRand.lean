/-
Model of `/repo/src/wfmath/randgen.cpp` and `MersenneTwister.h` (class `MTRand`).

`uint32` is `BitVec 32`. Arithmetic with `UL` constants is done in 64 bits (LP64) and truncated on
assignment. Every access to the 624-word table is bounds checked, an access outside it is `none`.
-/
import Mathlib.Data.Real.Basic

namespace WFMath.MT

abbrev Word := BitVec 32

/-- MersenneTwister.h 62-63: the table and the index. -/
structure MTRand where
  state : Fin 624 → Word
  index : Word

/-- `state[i]` as an rvalue. -/
def rd (st : Fin 624 → Word) (i : Word) : Option Word :=
  if h : i.toNat < 624 then some (st ⟨i.toNat, h⟩) else none

/-- `state[i] = w`. -/
def wr (st : Fin 624 → Word) (i : Word) (w : Word) : Option (Fin 624 → Word) :=
  if h : i.toNat < 624 then some (Function.update st ⟨i.toNat, h⟩ w) else none

/-- `for(k = start; k < start + n; ++k) body(k)`; `none` as soon as the body fails. -/
def loop {σ : Type} (body : Nat → σ → Option σ) : (start n : Nat) → σ → Option σ
  | _, 0, s => some s
  | start, n + 1, s => (body start s).bind fun s' => loop body (start + 1) n s'

/-- randgen.cpp 138, right hand side (64-bit arithmetic, truncated by the assignment). -/
def seedStep (p idx : Word) : Word :=
  (1812433253#64 * (p ^^^ (p >>> 30)).setWidth 64 + idx.setWidth 64).setWidth 32

/-- randgen.cpp 133-140 `seed(uint32)`. The loop variable is the member `index`, left at 624. The old
state is overwritten completely. -/
def seed (g : MTRand) (s : Word) : Option MTRand :=
  (wr g.state 0 s).bind fun st0 =>
    (loop (fun k st =>
        (rd st (BitVec.ofNat 32 k - 1)).bind fun p =>
          wr st (BitVec.ofNat 32 k) (seedStep p (BitVec.ofNat 32 k)))
      1 623 st0).map fun st => ⟨st, 624⟩

/-- randgen.cpp 154, 162: wrap the running index. -/
def wrapIndex (st : Fin 624 → Word) (i : Word) : Option ((Fin 624 → Word) × Word) :=
  if i ≥ 624 then
    (rd st 623).bind fun w => (wr st 0 w).map fun st' => (st', 1)
  else some (st, i)

/-- randgen.cpp 149-156: one round of the first loop of `seed(const uint32[], uint32)`. -/
def arrayStep1 (key : List Word) (x : (Fin 624 → Word) × Word × Word) :
    Option ((Fin 624 → Word) × Word × Word) :=
  let (st, i, j) := x
  (rd st (i - 1)).bind fun p =>
  (rd st i).bind fun c =>
  (wr st i ((c.setWidth 64 ^^^ ((p ^^^ (p >>> 30)).setWidth 64 * 1664525#64)).setWidth 32)).bind fun st =>
  (key[j.toNat]?).bind fun kj =>
  (rd st i).bind fun c =>
  (wr st i ((c.setWidth 64 + ((kj.setWidth 64 &&& 0xffffffff#64) + j.setWidth 64)).setWidth 32)).bind fun st =>
  let i := i + 1
  let j := j + 1
  (wrapIndex st i).bind fun (st, i) =>
  some (st, i, if j ≥ BitVec.ofNat 32 key.length then 0 else j)

/-- randgen.cpp 157-163: one round of the second loop. -/
def arrayStep2 (x : (Fin 624 → Word) × Word) : Option ((Fin 624 → Word) × Word) :=
  let (st, i) := x
  (rd st (i - 1)).bind fun p =>
  (rd st i).bind fun c =>
  (wr st i ((c.setWidth 64 ^^^ ((p ^^^ (p >>> 30)).setWidth 64 * 1566083941#64)).setWidth 32)).bind fun st =>
  (rd st i).bind fun c =>
  (wr st i (c - i)).bind fun st =>
  wrapIndex st (i + 1)

/-- randgen.cpp 143-165 `seed(const uint32 init_vector[], uint32 length)`. The array is `key`, its
length is the length argument (at most `2^32 - 1`). -/
def seedArray (g : MTRand) (key : List Word) : Option MTRand :=
  (seed g 19650218).bind fun g =>
  (loop (fun _ x => arrayStep1 key x) 0 (max 624 key.length) (g.state, 1, 0)).bind fun x =>
  (loop (fun _ x => arrayStep2 x) 0 623 (x.1, x.2.1)).bind fun y =>
  (wr y.1 0 0x80000000#32).map fun st => { g with state := st }

/-- randgen.cpp 171 `mag01` indexed by `y & 1`; `none` outside the two entries. -/
def mag01 (i : Word) : Option (BitVec 64) := [0x0#64, 0x9908b0df#64][i.toNat]?

/-- randgen.cpp 179-180, 184-185, 187-188: one word of the regenerated table, from the positions of
the current word, the next word, and the word a period away. -/
def regenWord (st : Fin 624 → Word) (k knext kper : Word) : Option (Fin 624 → Word) :=
  (rd st k).bind fun a =>
  (rd st knext).bind fun b =>
  let y := (a &&& 0x80000000#32) ||| (b &&& 0x7fffffff#32)
  (rd st kper).bind fun c =>
  (mag01 (y &&& 0x01#32)).bind fun m =>
  wr st k (((c ^^^ (y >>> 1)).setWidth 64 ^^^ m).setWidth 32)

/-- randgen.cpp 177-181: first loop of the regeneration. -/
def regenLoop1 (st : Fin 624 → Word) : Option (Fin 624 → Word) :=
  loop (fun k st => regenWord st (BitVec.ofNat 32 k) (BitVec.ofNat 32 k + 1) (BitVec.ofNat 32 k + 397))
    0 (624 - 397) st

/-- randgen.cpp 182-186: second loop. The offset `period - state_size` is the wrapped unsigned number
`2^32 - 227`. -/
def regenLoop2 (st : Fin 624 → Word) : Option (Fin 624 → Word) :=
  loop (fun k st => regenWord st (BitVec.ofNat 32 k) (BitVec.ofNat 32 k + 1)
      (BitVec.ofNat 32 k + (397 - 624)))
    (624 - 397) (623 - (624 - 397)) st

/-- randgen.cpp 176-188: regenerate the table. -/
def regen (st : Fin 624 → Word) : Option (Fin 624 → Word) :=
  (regenLoop1 st).bind fun st =>
  (regenLoop2 st).bind fun st =>
  regenWord st (624 - 1) 0 (397 - 1)

/-- randgen.cpp 195-199: tempering. -/
def temperCode (y : Word) : Word :=
  let y := y ^^^ (y >>> 11)
  let y := y ^^^ ((y <<< 7) &&& 0x9d2c5680#32)
  let y := y ^^^ ((y <<< 15) &&& 0xefc60000#32)
  y ^^^ (y >>> 18)

/-- randgen.cpp 168-202 `randInt()`. -/
def randInt (g : MTRand) : Option (Word × MTRand) :=
  (if g.index ≥ 624 then (regen g.state).map fun st => (⟨st, 0⟩ : MTRand) else some g).bind fun g =>
  (rd g.state g.index).bind fun y =>
  some (temperCode y, { g with index := g.index + 1 })

/-- The first `k` results of successive `randInt()` calls, and the generator afterwards. -/
def draws : Nat → MTRand → Option (List Word × MTRand)
  | 0, g => some ([], g)
  | k + 1, g => (randInt g).bind fun (w, g') => (draws k g').map fun (ws, g'') => (w :: ws, g'')

/-- MersenneTwister.h 96-101: the smeared mask of `randInt(n)`. -/
def smear (n : Word) : Word :=
  let u := n
  let u := u ||| (u >>> 1)
  let u := u ||| (u >>> 2)
  let u := u ||| (u >>> 4)
  let u := u ||| (u >>> 8)
  u ||| (u >>> 16)

/-- MersenneTwister.h 103-107 on a stream of generator words: the `do ... while(i > n)` loop. `none`
when the given words are used up without an acceptance (the loop would draw more). The result is
the value and the unused words. -/
def randIntFrom (n : Word) : List Word → Option (Word × List Word)
  | [] => none
  | w :: ws => if w &&& smear n > n then randIntFrom n ws else some (w &&& smear n, ws)

/-- MersenneTwister.h 94-108 `randInt(uint32 n)` on the generator itself; `fuel` bounds the number of
rejected words (outer `none`: illegal access; inner `none`: still looping). -/
def randIntN (n : Word) : (fuel : Nat) → MTRand → Option (Option Word × MTRand)
  | 0, g => some (none, g)
  | fuel + 1, g =>
    (randInt g).bind fun (w, g') =>
      if w &&& smear n > n then randIntN n fuel g' else some (some (w &&& smear n), g')

/-- MersenneTwister.h 87-88 `rand()`: exact value (real arithmetic). -/
noncomputable def rand (w : Word) : ℝ := (w.toNat : ℝ) * (1 / 4294967295)

/-- MersenneTwister.h 90-91 `rand(n)`. -/
noncomputable def randMax (w : Word) (n : ℝ) : ℝ := rand w * n

/-! ### Seeding without arguments -/

/-- randgen.cpp 94-100 (and 101-107): the loop over the bytes of an object in memory, `h = h * (UCHAR_MAX + 2) + byte` in `uint32`. -/
def hashBytes (bytes : List (BitVec 8)) : Word := bytes.foldl (fun h b => h * 257 + b.setWidth 32) 0

/-- randgen.cpp 83-108 `hash(t, c)`: the bytes of `t` and of `c`, and the static counter `differ`. Result: the hash and the counter afterwards. -/
def hash (differ : Word) (t c : List (BitVec 8)) : Word × Word := ((hashBytes t + differ) ^^^ hashBytes c, differ + 1)

/-- randgen.cpp 117-121: `init_vector` (its 624 words are whatever they were before), the pointer `s` as the number `pos` of the word it points to, the
counter `i`; `src` are the words that can be read from the file. `none`: a word is read into memory outside `init_vector`. Simplification: a read that fails
leaves the word as it was (it is not used afterwards). -/
def fillVector : (i pos : Nat) → (src : List Word) → (buf : Fin 624 → Word) → Option (Bool × (Fin 624 → Word))
  | 0, _, _, buf => some (true, buf)
  | i + 1, pos, src, buf =>
    if h : pos < 624 then
      match src with
      | [] => some (false, buf)
      | w :: src => fillVector i (pos + 1) src (Function.update buf ⟨pos, h⟩ w)
    else none

/-- randgen.cpp 111-130 `seed()`: `urandom` is `none` when `/dev/urandom` cannot be opened, otherwise the words it gives before it fails; `t` and `c` are the
bytes of `time(nullptr)` and `clock()`. Result: the generator and the static counter of `hash`. -/
def seedDefault (g : MTRand) (differ : Word) (urandom : Option (List Word)) (t c : List (BitVec 8)) (buf : Fin 624 → Word) : Option (MTRand × Word) :=
  let byTime := (seed g (hash differ t c).1).map fun g => (g, (hash differ t c).2)
  match urandom with
  | none => byTime
  | some src =>
    (fillVector 624 0 src buf).bind fun (ok, buf) =>
      if ok then (seedArray g (List.ofFn buf)).map fun g => (g, differ) else byTime

/-! ### Text form -/

/-- randgen.cpp 205-212 `save`: `fmt` is the standard library's formatting of an unsigned number. -/
def save (fmt : Nat → List Char) (g : MTRand) : List Char :=
  (List.ofFn fun i => fmt (g.state i).toNat ++ ['\t']).flatten ++ fmt g.index.toNat

/-- White space skipped by `operator>>`. -/
def isSpace (c : Char) : Bool := c = ' ' || c = '\t' || c = '\n' || c = '\r' || c = '\x0b' || c = '\x0c'

def isDigit (c : Char) : Bool := decide ('0' ≤ c) && decide (c ≤ '9')

/-- `istream >> uint32`: skip white space, read the longest run of digits; fails (`none`) without
digits or when the value does not fit. Simplification: a leading sign is not accepted. -/
def readWord (s : List Char) : Option (Word × List Char) :=
  let s := s.dropWhile isSpace
  let ds := s.takeWhile isDigit
  let v := ds.foldl (fun a c => 10 * a + (c.toNat - 48)) 0
  if ds = [] then none
  else if v < 2 ^ 32 then some (BitVec.ofNat 32 v, s.dropWhile isDigit) else none

/-- Read `n` words in sequence. -/
def readWords : Nat → List Char → Option (List Word × List Char)
  | 0, s => some ([], s)
  | n + 1, s => (readWord s).bind fun (w, r) => (readWords n r).map fun (ws, r') => (w :: ws, r')

/-- randgen.cpp 215-221 `load`. `none`: the stream is in a failed state. -/
def load (s : List Char) : Option (MTRand × List Char) :=
  (readWords 624 s).bind fun (ws, r) =>
    (readWord r).bind fun (i, r') =>
      if h : ws.length = 624 then some (⟨fun k => ws[k], i⟩, r') else none

end WFMath.MT
