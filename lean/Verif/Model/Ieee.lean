/-
Basic functions of `/repo/src/wfmath` a third time, with IEEE 754 doubles as numbers: rounding, overflow to infinity, gradual underflow and NaN.

`g` is any rounding to nearest. `fe` is the exponent `std::frexp` stores for an infinity or NaN, which the C standard leaves open (glibc stores 0).
Simplifications: those of `Spec/Ieee.lean`.
-/
import Verif.Model.Const
import Verif.Spec.Ieee

namespace WFMath.Ie
open Spec
variable (g : Nearest) (fe : ℤ) {n : Nat}

/-- vector.h, point.h: the members `m_elem` and `m_valid` of `Vector<dim>` and of `Point<dim>`. -/
structure DVec (n : Nat) where
  elem : Fin n → Dbl
  valid : Bool

/-! ### Comparison -/

/-- The exponent stored by `std::frexp`. -/
noncomputable def frexpExp : Dbl → ℤ
  | .num x => WFMath.frexpExp x
  | _ => fe
/-- `std::ldexp`. -/
noncomputable def ldexp (x : Dbl) (e : ℤ) : Dbl :=
  match x with
  | .num x => Dbl.round g (x * 2 ^ e)
  | x => x
/-- const.cpp 71-80 `_ScaleEpsilon(double, double, double)`. -/
noncomputable def scaleEpsilon (x1 x2 eps : Dbl) : Dbl := ldexp g eps (frexpExp fe (if Dbl.lt x1.abs x2.abs then x1 else x2))
/-- const.cpp 98-106: running maximum of the absolute values. -/
noncomputable def maxAbs (x : Fin n → Dbl) : Dbl := (List.finRange n).foldl (fun m i => if Dbl.lt m (x i).abs then (x i).abs else m) (.num 0)
/-- const.cpp 93-109 `_ScaleEpsilon(const CoordType*, const CoordType*, int, CoordType)`. -/
noncomputable def scaleEpsilonArr (x1 x2 : Fin n → Dbl) (eps : Dbl) : Dbl := scaleEpsilon g fe (maxAbs x1) (maxAbs x2) eps
/-- const.cpp 55-61 `Equal(double, double, double)`. -/
noncomputable def equal (x1 x2 eps : Dbl) : Bool := Dbl.le (Dbl.sub g x1 x2).abs (scaleEpsilon g fe x1 x2 eps)
/-- vector_funcs.h 58-74, point_funcs.h 67-83 `isEqualTo` of vectors and of points. -/
noncomputable def vecEqual (u v : DVec n) (eps : Dbl) : Bool :=
  if !v.valid || !u.valid then false
  else
    let delta := scaleEpsilonArr g fe u.elem v.elem eps
    (List.finRange n).all fun i => !Dbl.lt delta (Dbl.sub g (u.elem i) (v.elem i)).abs

/-- rotmatrix.h: the members of `RotMatrix<dim>`, without the age. -/
structure DMat (n : Nat) where
  elem : Fin n → Fin n → Dbl
  flip : Bool
  valid : Bool
/-- rotmatrix_funcs.h 41-69 `RotMatrix::isEqualTo`; `none`: failed assertion. -/
noncomputable def matEqual (a b : DMat n) (eps : Dbl) : Option Bool :=
  if Dbl.lt (.num 0) eps = false then none
  else if !b.valid || !a.valid then some false
  else if (List.finRange n).all fun i => (List.finRange n).all fun j => !Dbl.lt eps (Dbl.sub g (a.elem i j) (b.elem i j)).abs then
    (if a.flip = b.flip then some true else none)
  else some false

/-- quaternion.h: the members of `Quaternion`, without the age. -/
structure DQuat where
  w : Dbl
  vec : Fin 3 → Dbl
  valid : Bool
/-- quaternion.cpp 75-106 `Quaternion::isEqualTo`; `none`: failed assertion. -/
noncomputable def quatEqual (p q : DQuat) (eps : Dbl) : Option Bool :=
  if Dbl.lt (.num 0) eps = false then none
  else if !q.valid || !p.valid then some false
  else if Dbl.le (Dbl.sub g p.w q.w).abs eps && (List.finRange 3).all fun i => !Dbl.lt eps (Dbl.sub g (p.vec i) (q.vec i)).abs then some true
  else if Dbl.le (Dbl.add g p.w q.w).abs eps then some ((List.finRange 3).all fun i => !Dbl.lt eps (Dbl.add g (p.vec i) (q.vec i)).abs)
  else some false

/-! ### Lengths and distances -/

/-- `ans = 0; for(i) ans += f(i)`. -/
noncomputable def sum (f : Fin n → Dbl) : Dbl := (List.finRange n).foldl (fun s i => Dbl.add g s (f i)) (.num 0)
/-- vector_funcs.h 217-228 `sqrMag`. -/
noncomputable def sqrMag (v : Fin n → Dbl) : Dbl := sum g fun i => Dbl.mul g (v i) (v i)
/-- vector.h 217 `mag`. -/
noncomputable def mag (v : Fin n → Dbl) : Dbl := Dbl.sqrt g (sqrMag g v)
/-- vector.h 219-220 `normalize`; the validity flag stays. -/
noncomputable def normalize (v : Fin n → Dbl) (norm : Dbl) : Fin n → Dbl := fun i => Dbl.mul g (v i) (Dbl.div g norm (mag g v))
/-- vector_funcs.h 203-215 `Dot`. -/
noncomputable def dot (u v : Fin n → Dbl) : Dbl :=
  let delta := scaleEpsilonArr g fe u v (.num epsilon)
  let ans := sum g fun i => Dbl.mul g (u i) (v i)
  if Dbl.le delta ans.abs then ans else .num 0
/-- point_funcs.h 123-134 `SquaredDistance`. -/
noncomputable def sqDist (p q : Fin n → Dbl) : Dbl :=
  let ans := sum g fun i => Dbl.mul g (Dbl.sub g (p i) (q i)) (Dbl.sub g (p i) (q i))
  if Dbl.le (scaleEpsilonArr g fe p q (.num epsilon)) ans.abs then ans else .num 0
/-- point.h 54-56 `Distance`. -/
noncomputable def dist (p q : Fin n → Dbl) : Dbl := Dbl.sqrt g (sqDist g fe p q)

/-! ### Points in balls and boxes -/

/-- intersect_decls.h 40-43 `_LessEq`. -/
noncomputable def lessEq (x1 x2 : Dbl) (proper : Bool) : Bool := if proper then Dbl.lt x1 x2 else Dbl.le x1 x2
/-- intersect.h 112-117 `Intersect(Ball, Point)` for the ball with centre `c` and radius `R`. -/
noncomputable def interBallP (c : Fin n → Dbl) (R : Dbl) (p : Fin n → Dbl) (proper : Bool) : Bool :=
  lessEq (sqDist g fe c p) (Dbl.mul g (Dbl.mul g R R) (Dbl.round g (1 + epsilon))) proper
/-- intersect_decls.h 35-38 `_Less`. -/
noncomputable def less (x1 x2 : Dbl) (proper : Bool) : Bool := if proper then Dbl.le x1 x2 else Dbl.lt (.num epsilon) (Dbl.sub g x2 x1)
/-- intersect_decls.h 45-48 `_Greater`. -/
noncomputable def greater (x1 x2 : Dbl) (proper : Bool) : Bool := if proper then Dbl.le x2 x1 else Dbl.lt (.num epsilon) (Dbl.sub g x1 x2)
/-- intersect.h 72-80 `Intersect(AxisBox, Point)` for the box with corners `lo` and `hi`. -/
noncomputable def interBP (lo hi p : Fin n → Dbl) (proper : Bool) : Bool :=
  (List.finRange n).all fun i => !(greater g (lo i) (p i) proper || less g (hi i) (p i) proper)

end WFMath.Ie
