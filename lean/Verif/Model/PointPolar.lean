/-
Model of `/repo/src/wfmath/point.cpp` 41-96: polar and spherical coordinates of points.
-/
import Verif.Model.Point

namespace WFMath

/-- point.cpp 41-48 `Point<2>::polar`. -/
noncomputable def Pt.polar2 (r theta : ℝ) : Pt 2 := ⟨![(polarToCart r theta).1, (polarToCart r theta).2], true⟩
/-- point.cpp 50-57 `Point<2>::asPolar`. -/
noncomputable def Pt.asPolar2 (p : Pt 2) : ℝ × ℝ := cartToPolar (p.elem 0) (p.elem 1)
/-- point.cpp 59-67 `Point<3>::polar`. -/
noncomputable def Pt.polar3 (r theta z : ℝ) : Pt 3 := ⟨![(polarToCart r theta).1, (polarToCart r theta).2, z], true⟩
/-- point.cpp 69-77 `Point<3>::asPolar`. -/
noncomputable def Pt.asPolar3 (p : Pt 3) : ℝ × ℝ × ℝ :=
  ((cartToPolar (p.elem 0) (p.elem 1)).1, (cartToPolar (p.elem 0) (p.elem 1)).2, p.elem 2)
/-- point.cpp 79-86 `Point<3>::spherical`. -/
noncomputable def Pt.spherical (r theta phi : ℝ) : Pt 3 :=
  let c := sphericalToCart r theta phi
  ⟨![c.1, c.2.1, c.2.2], true⟩
/-- point.cpp 88-97 `Point<3>::asSpherical`. -/
noncomputable def Pt.asSpherical (p : Pt 3) : ℝ × ℝ × ℝ := cartToSpherical (p.elem 0) (p.elem 1) (p.elem 2)

end WFMath
