/-
Model of the bounding spheres of polygons in space in `/repo/src/wfmath/polygon_funcs.h`.
-/
import Verif.Model.Polygon
import Verif.Model.Bounding
import Verif.Model.Miniball

namespace WFMath
variable {n : Nat}

/-- polygon_funcs.h 337-343 `boundingSphere`; polygon.h 121 `Polygon<2>::boundingSphere`. `none`: a failed assertion, or see `boundingSphere`. -/
noncomputable def Poly.boundingSphere (checked : Bool) (fuel : Nat) (s : Poly n) : Option (Ball n) :=
  (WFMath.boundingSphere checked fuel s.poly).bind s.liftBall
/-- polygon_funcs.h 345-351 `boundingSphereSloppy`; polygon.h 122 `Polygon<2>::boundingSphereSloppy`. `none`: a failed assertion. -/
noncomputable def Poly.boundingSphereSloppy (s : Poly n) : Option (Ball n) := (boundingSphereSloppy2 s.poly).bind s.liftBall

end WFMath
