/-
Model of `BoundingSphere` in `/repo/src/wfmath/ball_funcs.h` and of the class it uses, `Miniball` in
`/repo/src/wfmath/miniball_funcs.h`.

Simplifications. The arrays `v, z, c, sqr_r` of `Basis`, indexed by the number `m` of points pushed, are modelled as a stack:
an entry at or above `m` is never read before it is written, except through the pointer `current_c`, whose target is kept
as a value. The coefficients `a` and `f` are only kept for `slack()`, whose result `BoundingSphere` ignores; `slack()` is
not modelled. An iterator into the list is modelled as the position it denotes.
-/
import Verif.Model.Shapes
import Mathlib.Data.Matrix.Mul

namespace WFMath.Miniball
open Matrix
variable {n : Nat}

/-- miniball.h 104-121: what `Basis` keeps for one pushed point. -/
structure Frame (n : Nat) where
  v : Fin n → ℝ
  z : ℝ
  c : Fin n → ℝ
  sqrR : ℝ

/-- miniball.h 96-124 `Basis`; the last frame belongs to the first point pushed, `q0`, and has no `v`, `z`. -/
structure Basis (n : Nat) where
  q0 : Fin n → ℝ
  frames : List (Frame n)
  s : Nat
  curC : Fin n → ℝ
  curR : ℝ

/-- miniball_funcs.h 282: the threshold below which a push is rejected. -/
noncomputable def pushEps : ℝ := (10 ^ 32)⁻¹

namespace Basis
/-- miniball_funcs.h 251-260 `reset`; `q0` is written before it is read. -/
def reset : Basis n := ⟨0, [], 0, 0, -1⟩
/-- miniball_funcs.h 240-247 `excess`. -/
noncomputable def excess (B : Basis n) (p : Fin n → ℝ) : ℝ := -B.curR + ∑ k, (p k - B.curC k) ^ 2
/-- miniball_funcs.h 271-275 `pop`. -/
def pop (B : Basis n) : Basis n := { B with frames := B.frames.tail }
/-- miniball_funcs.h 290-306: the part of `p - q0` orthogonal to the frames. -/
noncomputable def residue (q0 : Fin n → ℝ) (frames : List (Frame n)) (p : Fin n → ℝ) : Fin n → ℝ :=
  (p - q0) - ((frames.dropLast.map fun fr => ((fr.v ⬝ᵥ (p - q0)) * (2 / fr.z)) • fr.v).sum)
/-- miniball_funcs.h 278-333 `push`; `none`: rejected. The division is by a number that is not negative, and not 0 unless the
current ball is a point. -/
noncomputable def push (B : Basis n) (p : Fin n → ℝ) : Option (Basis n) :=
  match B.frames with
  | [] => some ⟨p, [⟨0, 0, p, 0⟩], 1, p, 0⟩
  | top :: rest =>
    let v := residue B.q0 (top :: rest) p
    let z := 2 * (v ⬝ᵥ v)
    if z < pushEps * B.curR then none
    else
      let e := -top.sqrR + ∑ k, (p k - top.c k) ^ 2
      let f := e / z
      let c := top.c + f • v
      let r := top.sqrR + e * f / 2
      some ⟨B.q0, ⟨v, z, c, r⟩ :: top :: rest, rest.length + 2, c, r⟩
end Basis

/-- miniball_funcs.h 62-86 `mtf_mb`, `move_to_front`: the basis, the part of the list before the argument in its new order, and the
number of points before `support_end`. The first argument is the number of further points the basis can take, `d + 1 - B.size()`;
when it is 0 the function returns at once. A point that is pushed is moved to the front, so that `support_end` moves one place. -/
noncomputable def mtf : Nat → Basis n → List (Fin n → ℝ) → Basis n × List (Fin n → ℝ) × Nat
  | 0, B, l => (B, l, 0)
  | k + 1, B, l => l.foldl (fun st j =>
      if st.1.excess j > 0 then
        match st.1.push j with
        | some B1 => ((mtf k B1 st.2.1).1.pop, j :: (mtf k B1 st.2.1).2.1, (mtf k B1 st.2.1).2.2 + 1)
        | none => (st.1, st.2.1 ++ [j], st.2.2)
      else (st.1, st.2.1 ++ [j], st.2.2)) (B, [], 0)

/-- miniball_funcs.h 110-127 `max_excess`: the greatest excess above 0 and the point and place where it is first found. -/
noncomputable def maxExcess (B : Basis n) (l : List (Fin n → ℝ)) : ℝ × Option ((Fin n → ℝ) × Nat) :=
  l.zipIdx.foldl (fun st k => if B.excess k.1 > st.1 then (B.excess k.1, some k) else st) (0, none)

/-- The state of `pivot_mb`: the basis, the list before and from the iterator `t`, and the number of points before `support_end`. -/
structure State (n : Nat) where
  B : Basis n
  front : List (Fin n → ℝ)
  back : List (Fin n → ℝ)
  s : Nat

/-- miniball_funcs.h 93-107: one pass of the loop of `pivot_mb` once a pivot is found, up to the condition of the loop. `t` moves to
`support_end`, the support points are treated with the pivot in the basis, and the pivot is moved to the front. The result of `push` is
ignored. -/
noncomputable def pivotStep (st : State n) (p : Fin n → ℝ) (i : Nat) : State n :=
  let B1 := (st.B.push p).getD st.B
  let r := mtf (n + 1 - B1.frames.length) B1 (st.front.take st.s)
  ⟨r.1.pop, p :: r.2.1, st.front.drop st.s ++ st.back.eraseIdx i, r.2.2 + 1⟩

/-- miniball_funcs.h 88-108 `pivot_mb`, the loop. The first argument bounds the number of passes; `none`: it was too small. -/
noncomputable def pivotLoop : Nat → State n → Option (State n)
  | 0, _ => none
  | k + 1, st =>
    match (maxExcess st.B st.back).2 with
    | none => some st
    | some (p, i) =>
      if (pivotStep st p i).B.curR > st.B.curR then pivotLoop k (pivotStep st p i) else some (pivotStep st p i)

/-- miniball_funcs.h 43-53 `build`, 88-91 the beginning of `pivot_mb`. `none`: the list is empty (undefined behaviour), or the bound is
too small. -/
noncomputable def build (fuel : Nat) : List (Fin n → ℝ) → Option (State n)
  | [] => none
  | p :: ps =>
    let r := mtf (n + 1) Basis.reset [p]
    pivotLoop fuel ⟨r.1, r.2.1, ps, r.2.2⟩

/-- miniball_funcs.h 183-202 `accuracy`, the variable `max_e`. -/
noncomputable def maxError (st : State n) : ℝ :=
  let l := st.front ++ st.back
  let e1 := (l.take st.s).foldl (fun m p => if |st.B.excess p| > m then |st.B.excess p| else m) 0
  (l.drop st.s).foldl (fun m p => if st.B.excess p > m then st.B.excess p else m) e1

end WFMath.Miniball

namespace WFMath
variable {n : Nat}
open Miniball

/-- ball_funcs.h 56-89 `BoundingSphere`; `checked`: the assertions are compiled in. `none`: a failed assertion, or see `build`. When the
radius is 0 the quotient in `accuracy` is infinite or no number, and its comparison is false. -/
noncomputable def boundingSphere (checked : Bool) (fuel : Nat) (l : List (Pt n)) : Option (Ball n) :=
  match build fuel (l.map Pt.elem) with
  | none => none
  | some st =>
    if checked && !(st.s == st.B.s && decide (st.B.curR ≠ 0 ∧ maxError st / st.B.curR < epsilon)) then none
    else some (Ball.mk' ⟨st.B.curC, l.all Pt.valid⟩ (Real.sqrt st.B.curR))

end WFMath
