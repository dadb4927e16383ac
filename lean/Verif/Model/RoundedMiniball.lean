/-
`BoundingSphere` of `/repo/src/wfmath/ball_funcs.h` and `Miniball` of `/repo/src/wfmath/miniball_funcs.h` with every arithmetic operation rounded to a double.

The functions are those of `Model/Miniball.lean` with the same branches and the same simplifications. Overflow and underflow are not modelled. A division by `z = 0` in `push` can only
happen when `current_sqr_r` is not positive; it then gives an infinity or NaN, with which the assertion at the end fails, whereas the model goes on with 0.
-/
import Verif.Model.Rounded
import Verif.Model.Miniball

namespace WFMath.Fl.Miniball
open Spec WFMath.Miniball
variable {n : Nat} (r : Rounding 53)

/-- miniball_funcs.h 240-247 `excess`, and 317-319 in `push`: `e = -q; for(k) e += sqr(p[k] - c[k])`. -/
noncomputable def excessOf (c : Fin n → ℝ) (q : ℝ) (p : Fin n → ℝ) : ℝ :=
  (List.finRange n).foldl (fun e k => r (e + r (r (p k - c k) * r (p k - c k)))) (-q)
/-- miniball_funcs.h 240-247 `excess`. -/
noncomputable def excess (B : Basis n) (p : Fin n → ℝ) : ℝ := excessOf r B.curC B.curR p
/-- miniball_funcs.h 290-306: `a` is computed for all frames from `Q_m` before `v_m` is changed. -/
noncomputable def residue (q0 : Fin n → ℝ) (frames : List (Frame n)) (p : Fin n → ℝ) : Fin n → ℝ :=
  let Q : Fin n → ℝ := fun j => r (p j - q0 j)
  frames.dropLast.reverse.foldl (fun v fr =>
    let a := r (sum r (fun j => r (fr.v j * Q j)) * r (2 / fr.z))
    fun j => r (v j - r (a * fr.v j))) Q
/-- miniball_funcs.h 278-333 `push`; `none`: rejected. -/
noncomputable def push (B : Basis n) (p : Fin n → ℝ) : Option (Basis n) :=
  match B.frames with
  | [] => some ⟨p, [⟨0, 0, p, 0⟩], 1, p, 0⟩
  | top :: rest =>
    let v := residue r B.q0 (top :: rest) p
    let z := r (sum r (fun j => r (v j * v j)) * 2)
    if z < r (r pushEps * B.curR) then none
    else
      let e := excessOf r top.c top.sqrR p
      let f := r (e / z)
      let c : Fin n → ℝ := fun i => r (top.c i + r (f * v i))
      let q := r (top.sqrR + r (r (e * f) / 2))
      some ⟨B.q0, ⟨v, z, c, q⟩ :: top :: rest, rest.length + 2, c, q⟩

/-- miniball_funcs.h 62-86 `mtf_mb`, `move_to_front`: as `WFMath.Miniball.mtf`. -/
noncomputable def mtf : Nat → Basis n → List (Fin n → ℝ) → Basis n × List (Fin n → ℝ) × Nat
  | 0, B, l => (B, l, 0)
  | k + 1, B, l => l.foldl (fun st j =>
      if excess r st.1 j > 0 then
        match push r st.1 j with
        | some B1 => ((mtf k B1 st.2.1).1.pop, j :: (mtf k B1 st.2.1).2.1, (mtf k B1 st.2.1).2.2 + 1)
        | none => (st.1, st.2.1 ++ [j], st.2.2)
      else (st.1, st.2.1 ++ [j], st.2.2)) (B, [], 0)

/-- miniball_funcs.h 110-127 `max_excess`. -/
noncomputable def maxExcess (B : Basis n) (l : List (Fin n → ℝ)) : ℝ × Option ((Fin n → ℝ) × Nat) :=
  l.zipIdx.foldl (fun st k => if excess r B k.1 > st.1 then (excess r B k.1, some k) else st) (0, none)

/-- miniball_funcs.h 93-107: one pass of the loop of `pivot_mb`: as `WFMath.Miniball.pivotStep`. -/
noncomputable def pivotStep (st : State n) (p : Fin n → ℝ) (i : Nat) : State n :=
  let B1 := (push r st.B p).getD st.B
  let m := mtf r (n + 1 - B1.frames.length) B1 (st.front.take st.s)
  ⟨m.1.pop, p :: m.2.1, st.front.drop st.s ++ st.back.eraseIdx i, m.2.2 + 1⟩

/-- miniball_funcs.h 88-108 `pivot_mb`, the loop. The first argument bounds the number of passes; `none`: it was too small. -/
noncomputable def pivotLoop : Nat → State n → Option (State n)
  | 0, _ => none
  | k + 1, st =>
    match (maxExcess r st.B st.back).2 with
    | none => some st
    | some (p, i) =>
      if (pivotStep r st p i).B.curR > st.B.curR then pivotLoop k (pivotStep r st p i) else some (pivotStep r st p i)

/-- miniball_funcs.h 43-53 `build`, 88-91 the beginning of `pivot_mb`. `none`: the list is empty (undefined behaviour), or the bound is too small. -/
noncomputable def build (fuel : Nat) : List (Fin n → ℝ) → Option (State n)
  | [] => none
  | p :: ps =>
    let m := mtf r (n + 1) Basis.reset [p]
    pivotLoop r fuel ⟨m.1, m.2.1, ps, m.2.2⟩

/-- miniball_funcs.h 183-202 `accuracy`, the variable `max_e`. -/
noncomputable def maxError (st : State n) : ℝ :=
  let l := st.front ++ st.back
  let e1 := (l.take st.s).foldl (fun m p => if |excess r st.B p| > m then |excess r st.B p| else m) 0
  (l.drop st.s).foldl (fun m p => if excess r st.B p > m then excess r st.B p else m) e1

end WFMath.Fl.Miniball

namespace WFMath.Fl
variable {n : Nat} (r : Spec.Rounding 53)

/-- ball_funcs.h 56-89 `BoundingSphere`; `checked`: the assertions are compiled in. `none`: a failed assertion, or see `build`. When the radius is 0 the quotient in `accuracy` is
infinite or no number, and its comparison is false. -/
noncomputable def boundingSphere (checked : Bool) (fuel : Nat) (l : List (Pt n)) : Option (Ball n) :=
  match Miniball.build r fuel (l.map Pt.elem) with
  | none => none
  | some st =>
    if checked && !(st.s == st.B.s && decide (st.B.curR ≠ 0 ∧ r (Miniball.maxError r st / st.B.curR) < epsilon)) then none
    else some (Ball.mk' ⟨st.B.curC, l.all Pt.valid⟩ (r (Real.sqrt st.B.curR)))

end WFMath.Fl
