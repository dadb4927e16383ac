# Formal model of worldforge/wfmath in Lean 4

This directory holds a Lean 4 model of the C++ library in `/repo/src/wfmath`, a list of semantic
properties (`properties.jsonl`), and machine-checked theorems about the model.

## Layout

| Path | Content |
|---|---|
| `lean/Verif/Model/*.lean` | the model, function by function; each definition cites the file and lines it models |
| `lean/Verif/Spec/*.lean` | small independent specifications (point sets, recurrences, numerals, ...) that do not use the model's helpers |
| `lean/Verif/Lemmas/*.lean` | helper lemmas |
| `lean/Verif/Props/*.lean` | the property theorems `Cnn_...`, with satisfiability `example`s beside them |
| `lean/Verif/Cases/*.lean` | further `example`s: each applies one theorem of `Props` to concrete objects that meet its hypotheses |
| `MANIFEST.json` | property -> theorems, status |
| `seeded/LOG.jsonl` | results of editing the model the way a realistic bug would |

## Modelling decisions

* **Coordinates.** `CoordType` is `double`. In the main model arithmetic is over the real numbers, so rounding,
  overflow, underflow, infinities, NaN and signed zero are *not* modelled there, except in the Atlas
  conversion model, where "is this number finite" matters and a number is finite, infinite or NaN.
* **Range of doubles.** `Model/Ieee.lean`, `Model/IeeeMove.lean` and `Model/IeeeQuat.lean` (namespace `WFMath.Ie`) model the basic functions a third time with the
  doubles of `Spec/Ieee.lean`: rounding to nearest among the multiples of 2^-1074, overflow to infinity at 2^1024, and
  NaN. 0 and -0 are one number there. The theorems are C142, C143, C145 and C146.
* **Rounding.** `Model/Rounded.lean`, `Model/RoundedSphere.lean`, `Model/RoundedRot.lean`, `Model/RoundedQuat.lean`, `Model/RoundedSeg.lean`, `Model/RoundedRBox.lean`, `Model/RoundedSat.lean`, `Model/RoundedPoly.lean`, `Model/RoundedGauss.lean`, `Model/RoundedPoly3Inter.lean`, `Model/RoundedPolyBox.lean`, `Model/RoundedPolySeg.lean`, `Model/RoundedPolyIn.lean`, `Model/RoundedPolyRBox.lean`, `Model/RoundedHistory.lean`, `Model/RoundedSteps.lean`, `Model/RoundedSegSteps.lean`, `Model/RoundedBallHistory.lean`, `Model/RoundedUndo.lean`, `Model/RoundedUndoPoly.lean`, `Model/RoundedRBoxSteps.lean`, `Model/RoundedMiniball.lean`, `Model/RoundedDir.lean`, `Model/RoundedPoly3.lean` and `Model/RoundedMove.lean`, `Model/RoundedPoly3Move.lean` (namespace `WFMath.Fl`) model part of the library a second time with
  *every* arithmetic operation rounded to 53 binary digits, in the order of the C++ text, for an arbitrary
  rounding to nearest (`Spec.Rounding 53`: any function to the numbers with 53 digits that picks a nearest one
  and treats `x` and `-x` alike; ties are open). `Lemmas/Float.lean` proves that such a rounding exists. The
  exponent is unbounded (no overflow, no underflow), there are no NaN, and no operation is fused or kept in a wider
  register. Of `std::sin` and `std::cos` only an error bound of 2^-52 is assumed (`Spec.Trig`). The theorems about it are C114 and up; they say how far the properties proved of the main model
  survive in doubles. Functions that only compare, copy or negate (boxes, clamps, corners) are the same
  in both models.
* **Cut-offs.** The *logic* the code uses to cope with rounding (the `epsilon` constant, `frexp`/`ldexp`
  scaling of it, flush-to-zero cut-offs in `Dot`, `Cross`, `SquaredDistance`, the tolerant `Equal`,
  the age counters and renormalisation) is modelled exactly as written.
  Code that only compares and copies coordinates (boxes, clamps) is modelled over an arbitrary linear
  order, which covers doubles other than NaN exactly.
* **Integers.** `uint32` is `BitVec 32`, `unsigned long`/`long` in `IntToString` are 64 bit.
  `time_t`/`long` in the time code are unbounded integers (the code documents that it does not check
  for overflow); C++ truncating `/` and `%` are `Int.tdiv`/`Int.tmod`.
* **Validity flags** are part of every value; uninitialised coordinates of an invalid value are arbitrary.
* **Assertions and undefined behaviour** are a distinct outcome: a partial C++ function is modelled
  with result `Option` (`none` = failed assertion, out-of-range access or undefined behaviour) or
  `Except` (exception thrown), never by a default value.
* **In-place updates** become functions returning the new value.
* **Streams** are lists of characters; number formatting/parsing by the standard library is a
  parameter with the recorded assumption that it reads back what it wrote.
* **Random choices** are an explicit input sequence.

## Trusted base

* Lean 4.33.0's kernel and the three standard axioms `propext`, `Classical.choice`, `Quot.sound`
  (no others; no `sorry`, `native_decide`, `bv_decide`). Reals come from Mathlib and use all three.
* The axioms of every theorem of `MANIFEST.json` are listed in `AXIOMS.tsv` (made with `Lean.collectAxioms`). All but a few use exactly
  these three; the others use fewer.
* The faithfulness of the hand translation from C++ (cited line by line), and the idealisations above.
* Standard library behaviour taken as given: number formatting and parsing (the hypothesis `PrintsBack` of the printing theorems: a number
  printed with enough digits is read back as itself), the exactness of `sqrt`, `sin`, `cos`, `atan2`, `exp`, `log` and of the constants in
  the probability functions, `std::vector` and `std::list` as lists, Atlas messages as trees of maps, lists, strings and numbers.
* Not modelled: see the list at the end.

## Properties: what is modelled and how it is proved

| Id | Property | Model and proof |
|---|---|---|
| C01 | IntToString(unsigned long) prints the canonical decimal numeral | `DoIntToString` as a loop writing into a bounded buffer (overrun = `none`); strong induction on the value, `Nat.digits` as spec. |
| C02 | IntToString(long) prints the canonical signed numeral | `SafeAbs` on 64-bit vectors, buffer of one more byte; reduction to C01 plus the sign case, LONG_MIN included. |
| C03 | Valid time values stay normalised through every history | Integer pairs with a validity flag; invariant by induction over an op list. |
| C04 | Time arithmetic is exact and cancels | Refinement to the integer number of microseconds; laws follow. |
| C05 | Time comparison is the order of real time | Same refinement; order transported from the integers. |
| C06 | A time difference built from milliseconds reports those milliseconds | Direct model; the statement is false of the code (witness), partial theorem for multiples of 1000. |
| C07 | Invalid time values are contagious | Induction over expression trees. |
| C08 | MTRand emits exactly the Mersenne Twister MT19937 sequence | State machine over `BitVec 32` tables with bounds-checked access; refinement to the textbook recurrence by induction over blocks of 624 draws. |
| C09 | Generator state never indexes outside its table | Bounds-checked reads/writes in `Option`; invariant over op histories. `seed(array,0)` is the excluded precondition, shown to be out of bounds. |
| C10 | Saving and loading a generator resumes the identical stream | Text save/load over characters with decimal numerals; equality of states implies equality of all future output. |
| C11 | randInt(n) stays in range and is unbiased | Mask smearing proved to be the least all-ones word above n; counting bijection for uniformity. |
| C12 | rand() family stays in its documented interval | Real-valued function of the word; interval arithmetic. |
| C13 | Shuffle returns a permutation and is fair | Swap loop over choice sequences; permutation by induction, injectivity of choices to permutations and a counting argument. |
| C14 | Tolerant scalar equality is reflexive, symmetric and scale-relative | `frexp` exponent via integer base-2 logarithm; direct. |
| C15 | Clamp, min and max | Linear orders. |
| C16 | Validity of vector expressions is the conjunction of the leaves | Induction over expression trees. |
| C17 | Vector arithmetic is a vector space | Pointwise algebra. |
| C18 | Dot returns the inner product up to its documented cut-off | Sum over components with the cut-off as written. |
| C19 | sloppyMag brackets the true length | Case analysis and nonlinear arithmetic; the constants are bounded by exact rationals of the float literals. |
| C20 | normalize produces the requested length | Real square roots. |
| C21 | Cross product in three dimensions | Component cut-off as written; error bounds relative to Mathlib's cross product, exact when no cut-off fires. |
| C22 | Cross product in two dimensions is antisymmetric | The code misses an absolute value: negation with witness; partial theorem on the nonnegative side. |
| C23 | Angle is a symmetric value in [0, pi] | Arccos with the clamp; exact when the cut-off does not fire. |
| C24 | Rotating a vector in a coordinate plane | Trigonometric identities, matrix identity in every dimension. |
| C25 | Rotating a 3-vector about an axis | Rodrigues formula in exact arithmetic, cut-offs as hypotheses or error terms. |
| C26 | Mirroring is an involution and an isometry | Pointwise / projection algebra. |
| C27 | Polar and spherical coordinates round trip | atan2 as the argument of a complex number; the code passes arguments in the wrong order: negation with witness, partial theorems. |
| C28 | Tolerant vector and point equality | Direct. |
| C29 | Point/vector arithmetic is an affine space | Pointwise algebra. |
| C30 | Midpoint and barycenter lie where they should | Loops as folds over lists; convexity for box membership. |
| C31 | Point coordinate changes invert each other | Matrix algebra with orthogonality; quaternion algebra. |
| C32 | SquaredDistance is a squared metric up to its cut-off | Direct with cut-off. |
| C33 | Unit quaternions stay unit quaternions | Invariant over op histories; the age-triggered renormalisation divides by (|q|^2+1)/2, which is 1 on the invariant. |
| C34 | Quaternion multiplication composes rotations in order | Polynomial identities modulo |q|=1; cut-off free and error-bounded versions. |
| C35 | Rotating by a quaternion is an orientation preserving isometry | Polynomial identities. |
| C36 | Quaternion to matrix and back | Polynomial identities; the non-positive trace branch has a sign error: negation with witness, partial theorem for positive trace. |
| C37 | Quaternion equality identifies q and -q | Direct. |
| C38 | The quaternion taking one direction to another | Half-angle algebra. |
| C39 | Renormalising a drifting quaternion moves it towards unit norm | Scalar iteration x -> 2x/(x^2+1), monotone convergence. |
| C40 | Rotation matrices stay orthogonal with correct parity | Matrices over `Fin n`, invariant over op histories, determinant multiplicativity. |
| C41 | Matrix product conventions | Matrix algebra. |
| C42 | rotation(i,j,theta) and rotation(v1,v2,theta) | Matrix algebra with trigonometric identities. |
| C43 | The matrix taking one direction to another | Matrix algebra. |
| C44 | Mirror matrices | Matrix algebra, determinant of a Householder reflection. |
| C45 | normalize leaves rotation matrices alone and repairs drifting ones | Inverse transpose averaging; orthogonal is a fixed point, error contraction in the exact case. |
| C46 | setVals accepts exactly near-orthogonal input | Loop of the averaging iteration with fuel for the unbounded while; success path on orthogonal input, refusal path. Parity (Props/RotParity.lean): the determinant helper overwrites a small pivot instead of adding to it; with the limits of double and a nearly orthogonal array of size 2 or 3 the error this makes is bounded by 0.8 (Lemmas/DetSign.lean), so the sign is right. |
| C47 | The Gaussian elimination helpers are correct | Gaussian elimination over functions on `Fin n`, loop invariants det / row-equivalence. |
| C48 | fromQuaternion records the parity it produces | Direct; false for not_flip=false (witness), partial for true. |
| C49 | Box construction orders its corners | Linear order, per-axis. |
| C50 | Intersection of boxes is set intersection | Linear order, per-axis, loop with early return. |
| C51 | Union of boxes is the least enclosing box | Linear order lattice. |
| C52 | BoundingBox is the least enclosing box of a container | Fold over lists. |
| C53 | Box corners | Bit tests on the index. |
| C54 | Box intersection and containment predicates match the point sets | Point-set semantics as spec. |
| C55 | Ball predicates match the point sets | Point-set semantics in Euclidean space. |
| C56 | Bounding spheres of boxes, segments and rotated boxes enclose the shape | Euclidean geometry; RotBox sloppy sphere uses the squared length: negation. |
| C57 | BoundingSphereSloppy encloses all points | Invariant of the fold. |
| C58 | BoundingSphere is the smallest enclosing ball | Model/Miniball.lean: `Basis` as a stack of frames, `mtf_mb` by recursion on the room left in the basis, `pivot_mb` with a bound on its passes that is proved sufficient. Spec/Miniball.lean: `IsSmallest`, `WellSpread`. Lemmas/Miniball.lean: Welzl's lemma by convex combination of balls, the Gram-Schmidt invariant of the basis, the invariant of the move-to-front loop and of the pivot loop, termination by counting subsets. `C58_smallest_partial`, `C58_unchecked_partial`, `C58_order_partial`, `C58_encloses`, `C58_false`, `C58_empty` |
| C59 | Segment/box intersection is exact | Liang-Barsky clipping invariant by induction over axes. |
| C60 | Segment/ball intersection is exact | Closest point on a segment. |
| C61 | Segment/point incidence | Cauchy-Schwarz equality case. |
| C62 | Segment/segment intersection is exact | The coordinate tests are wrong: negation with witness; partial for the parallel branch. |
| C63 | A convex shape contains a segment when it contains its ends | Convexity. |
| C64 | Rotated box membership and corners | Change of coordinates by the orthogonal matrix. |
| C65 | The bounding box of a rotated box is tight | Per-axis optimisation over sign choices. |
| C66 | Rotated box against box: separating axis test | Props/Separating.lean on Lemmas/Separating.lean. The separating axis theorem for two parallelepipeds is proved from Helly's theorem (helly2, helly3) and a reduction of the remaining normals to edge cross products (sat2, sat3, sat_parallel). `C66_plane`, `C66_plane_rotated` complete; `C66_shared`, `C66_reported_partial`, `C66_reported_any_partial`, `C66_proper_partial`, `C66_space_rotated_partial` in space; `C66_false`: nearly parallel rods 3 apart are reported ; Props/SatShared.lean for overlaps under the cut-off |
| C67 | Rotated box containment predicates | Reduction to C65 and C54. |
| C68 | Coordinate changes of shapes invert each other | Round trips and corner-by-corner conversion per shape (`Props/ShapeCoords`); negations `C68_false`, `C68_polygon_false`. |
| C69 | Moving a shape puts the named corner or centre where asked | Per shape, `Props/ShapeMoves`. |
| C70 | Rotating a shape fixes the named corner or centre | `about R c x = c + R (x - c)` is the specification; per shape, `Props/ShapeRotate`; negation `C70_false`. |
| C71 | Lines and 2D polygons behave as point lists | Refinement of the corner vector to an index function, by induction over edit histories (`Props/Corners`). |
| C72 | 3D polygons remember their corners | Invariant over histories of `addCorner` (`Built`): basis + error bound (`Lemmas/PolyExpand`, `Props/PolyAdd`); negation `C72_false`. |
| C73 | Removing or moving a corner of a 3D polygon leaves the others in place | Case analysis of `reduce` (`Lemmas/PolyReduce`), `Props/PolyEdit`; negations `C73_false`, `C73_moved_false`. |
| C74 | Point in polygon follows the even-odd rule | Spec/PolyShapes.lean: sides, boundary, crossings of a ray in any direction. `C74_exact`: what the loop returns for every polygon and point; `C74_even_odd`: equals the parity for a ray in any direction (Lemmas/EvenOdd.lean proves direction independence by going round the closed chain); `C74_walk`, `C74_region`, `C74_outside`, `C74_triangle` tie the parity to geometry; `C74_renumber`, `C74_reverse` invariance |
| C75 | A convex shape contains a polygon when it contains its corners | Model/PolyIntersect.lean: the containment tests on corners. Each test is proved equivalent to `convexHull (corners) ⊆` the open solid (proper) or the enlarged solid (non-proper), for Polygon<2> and for polygons in n dimensions built by any edit history; the ball test in space needs that no cut-off fires in the projection, and `C75_ball_general` gives what holds with cut-offs |
| C76 | Vectors and points survive printing and parsing | Character streams (`Model/Stream`), number conversion a parameter with the stated contract `PrintsBack`; grammar `CoordText` in `Spec/Stream`; induction over components (`Props/Stream`). |
| C77 | Shapes survive printing and parsing | `Props/Stream`, `Props/StreamPoly`; negations `C77_polygon3_false`, `C77_empty_false`, `C77_fromString_false`, `C77_low_precision_false`. |
| C78 | Atlas conversion round trips | Model/Atlas.lean: message trees, numbers that may be infinite or NaN, `toAtlas`/`fromAtlas` of each type as (object left, thrown). Round trips proved in Props/Atlas.lean for vectors, points, unit quaternions, boxes, balls, lines and polygons read into empty objects, unrotated RotBoxes. Negations: orientation of a RotBox lost, corners appended to existing ones, polygons with fewer than three corners rejected |
| C79 | Atlas input is checked | Exactly when `fromAtlas` throws and that valid results are finite, for every message and every previous object: vector, point, quaternion, box, line, polygon, RotBox. Negations: ball accepts everything and may end valid with a NaN radius; exception leaves a valid vector with an infinite coordinate; corner of an invalid box is a valid point at infinity |
| C80 | Factorial is exact where computed exactly, Gaussian and Poisson are probability densities | Model/Probability.lean. `C80_factorial_small`, `C80_logFactorial_small` exact below ten; `C80_factorial`, `C80_logFactorial` all n, through an independent proof of Stirling's formula with bounds (Lemmas/Stirling.lean); `C80_gaussian(_density)` against Mathlib's density; `C80_poisson` against Mathlib's Poisson weights, every mean >= 0 and step |
| C81 | The Stirling coefficients are the Bernoulli coefficients | `C81_partial`: nine of the eleven entries equal B(2i+2)/((2i+1)(2i+2)) with Mathlib's Bernoulli numbers; `C81_false`: entries 3 (-1/1620 for -1/1680) and 9 (-174661 for -174611) are wrong |
| C82 | The incomplete gamma power series loop terminates with a partial sum | `C82_terminates`: the loop ends for all admissible arguments, with the first partial sum whose last term is at most epsilon times it; `C82_accuracy`: error bound against the infinite sum; `C82_rejects` |
| C83 | In-place quaternion operations may use the same object | Direct model of the aliased loop order; negation with witness, partial theorem. |
| C84 | A quaternion and the matrix built from it rotate vectors alike | Polynomial identities; the matrix is the transpose of the one needed: negation with witness, partial theorem. |
| C85 | Conversions and products of rotations propagate invalidity | Case analysis of the flags; negation with witness, partial theorem for all other operations. |
| C86 | Rotating a matrix by a quaternion composes the rotations | Row-wise rotation and the vector laws. |
| C87 | The bounding box of a ball is tight | Coordinate bound of the Euclidean distance; the extreme points on each axis are attained. |
| C88 | A segment contains a shape only when it covers it | Convexity of the tolerance region; the loop that looks for the one differing axis is specified separately. |
| C89 | Rotated boxes against balls and segments | Transport of the axis box theorems through the isometry that turns the box about its base corner. |
| C90 | A polygon in space stays readable through every history of edits | Inductive histories `Edited`, invariant `PolyOk` (`Props/PolyEdit`). |
| C91 | Reading ends for every text | The `do is >> next while(...)` loops are modelled by iteration (`skipTo`); negation `C91_false` (a failed stream leaves `next` unchanged), partial theorem for boxes and segments (`Props/StreamPoly`). |
| C92 | Parallel and Perpendicular tests bound the angle | Model/Vector.lean `parallel`, `perpendicular` with exact tolerance logic. Bounds both ways when the inner product is not cut off; negations with concrete short vectors (perpendicular vectors of length 2^-12 count as parallel, a vector of length 2^-50 as perpendicular to itself) |
| C93 | Points on the boundary of a plane polygon | `C93_slanted_partial` for sides that are not horizontal, `C93_false` on the unit square: horizontal sides are skipped by the loop |
| C94 | LogGamma and Gamma are the Gamma function | `C94_accuracy`, `C94_gamma` wherever they return (reflection formula below 1/2); `C94_returns`, `C94_total`, `C94_special`; `C94_false`: an interval between 2 and 3 where the assertion fails |
| C95 | The conditional distributions are hazard rates | | C95 | The conditional distributions are hazard rates | `C95_poisson`: every mean and step, with a relative error of 10^-9 plus the machine epsilon times the mean (`C95_poisson_low` power series, `C95_poisson_high` continued fraction); `C95_gaussian_mean`: at the mean; `C95_gaussian_tail`: from sqrt 3 deviations on, relative error 42 machine epsilons, by an integral formula for the error of every convergent of the continued fraction (`Props/Continued.lean`); `C95_gaussian_false`: one deviation above the mean the result is below 4/5 of the right one, because IncompleteGamma uses the wrong prefactor | |
| C96 | Comparison of rotation matrices | Props/RotEqual.lean. `C96_iff`, `C96_refl`, `C96_symm`, `C96_invalid`; `C96_rotation` by the eigenvalue -1 of a product of opposite parity; `C96_coarse` shows the bound on the tolerance is needed |
| C97 | Plane polygon against a ball | Spec/PolyShapes.lean `inside`, `filled`. Props/PolyBall.lean: a convex set that has a point inside and a point outside meets the boundary (from the parity lemma); then the segment/ball test C60 is applied to each side. `C97_accepts`, `C97_rejects`, `C97_answers`, `C97_contains`, `C97_contained` |
| C98 | Plane polygon against a box | Lemmas/PolyBox.lean unrolls the loop; Props/PolyBox.lean: exit points of sides, parity at the low corner. `C98_accepts_partial`, `C98_rejects`, `C98_exact_partial`; the code misses every polygon that is wholly inside the box: `C98_inside`, `C98_false`. Rotated boxes by the affine invariance of the parity (Props/PolyMoved.lean): `C98_rotbox_partial`, `C98_rotbox_inside` |
| C99 | Plane polygon that contains a box | Lemmas/PolyBox.lean, Props/PolyBox.lean `C99_exact_partial` for boxes whose rim no side grazes; `C99_false`: the unit square is said not to contain the identical box. `C99_rotbox_partial` in Props/PolyMoved.lean |
| C100 | Plane polygon against a segment | Props/PolyPairs.lean: `C100_end_partial`, `C100_answers`, `C100_contains_partial`, `C100_in_segment`. The code asks the test of two segments, which is wrong (C62): `C100_false` has a segment through the middle of the unit square that is missed and a distant one that is reported; `C100_contains_false` likewise for containment, with a read past the end of the vector |
| C101 | Two plane polygons | Props/PolyPairs.lean: `C101_corner_partial`, `C101_contains_partial`; `C101_false` has two overlapping triangles that are said to be apart and two distant polygons that are said to meet, `C101_contains_false` the same for containment |
| C102 | What is in a point | Props/PolyPairs.lean `C102_point`, `C102_segment`, `C102_polygon` |
| C103 | Point and polygon in space | Model/PolyIntersect.lean `Orient.offset`, `checkContained`, `interPolyPn`; Spec/PolyShapes.lean `Spans`, `spacePoint`, `spaceInside`. Props/PolySpace.lean: the offset is the perpendicular part, unique; then C74. False at the origin of space, where the tolerance is 0 |
| C104 | Polygon in space within a point | `containsPPolyN`. Never true for a polygon with a corner, because the coordinates computed in the plane are not marked valid and compare unequal to everything: `C104_never_false`, `C104_rejects_partial`, `C104_false` |
| C105 | Ball and polygon in space | `interPolyBallN`, `containsPolyBallN`. Pythagoras reduces the ball to a disc in the plane, then C97. `C105_accepts`, `C105_rejects`, `C105_contains` |
| C106 | Segment and polygon in space | `interPolySn`, `containsPolySn`. The only point of the segment in the plane is the one the code computes; then C74. For segments in the plane the faulty plane test C100 is used: `C106_flat`, `C106_false` |
| C107 | Box and polygon in space | `checkIntersectPlane`, `interPolyBn`, `interPolyRn`, `polyContainsBox`. What is accepted is right (`C107_sound_partial`, `C107_rotbox_partial`, from C59 applied to each side); boxes that are not flat are never contained. False of the code: a box through the plane is always said to miss, a box above it makes two overloads call each other without end, a flat box is replaced by another box (`C107_false`, `C107_contains_false`) |
| C108 | Polygons in parallel planes | `commonDir`, `planesParallel`, `shiftPoly`, `interPolyPolyN`. For planes with the same axes the answer is that of the plane test C101 with the origins of the planes ignored (`C108_axes_partial`), so that it is wrong as soon as the origins differ (`C108_false`). Planes that cross: C110 |
| C109 | Tolerant equality of shapes | `isEqualTo` of each shape in Model/Shapes.lean and Model/Polygon.lean. Props/ShapeEqual.lean, from C28; for lists of corners by induction; for polygons in space from the invariant of editing histories (`Readable`) |
| C110 | Polygons in crossing planes | Model/PolyCross.lean: `commonDir`, `planesLine`, `planesMeet`, `lineBounds`, `getCrossings`, `compareCrossings`, `polyPolyIntersect`, `interPolyPolyN`. Props/PolyCross.lean, Props/PolyLine.lean. Holds for two polygons on one line (`C110_lines`); for a polygon on a line of the plane of the second argument the plane test C100 is asked (`C110_line_partial`), in the other order with a wrong segment (`C110_line_first_partial`). Planes at an angle are handled as if they were parallel with the origins ignored (`C110_oblique_partial`), so that the answer does not depend on where the polygons are (`C110_position_false`); for perpendicular planes the answer is false unless a corner lies on the common line (`C110_perpendicular_false`); `C110_false` has concrete squares |
| C111 | A polygon in space contains another | `polyPolyContains`, `containsPolyPolyN`. Right for perpendicular planes (`C111_perpendicular`) and polygons without corners (`C111_empty`); for a second polygon on a line see `C110_line_partial`; for planes at an angle the origins are ignored (`C111_oblique_partial`, `C111_position_false`, `C111_false`) |
| C112 | A segment contains a polygon | `containsSPolyN` in Model/PolyIntersect.lean. Props/PolyInSegment.lean: `C112_accepts` (all corners on the segment), `C112_rejects` (the proper test; error bound from `expand` and C61). Not proved: the polygons that the tolerant test accepts, which inherit C61_false |
| C113 | Renormalisation bounds the drift of quaternions | Props/QuatDrift.lean. `C113_running_partial`: invariant (norm error at most proportional to the age, age below 20) over all histories in which one quaternion is multiplied or divided again and again by quaternions of norm near 1. `C113_false`: the left operand is renormalised and its age restarted before the multiplication, so that the error of an old right operand is kept in a product that counts as fresh; repeated, the norm gets as small as one likes |
| C114 | Tolerances outlive rounding in comparisons and box tests | Spec/Float.lean: numbers with 53 binary digits, any rounding to nearest. Model/Rounded.lean: the functions with every operation rounded. Props/RoundCompare.lean: the subtraction is exact near the border (Sterbenz), the tolerance is itself a double, rounding is monotone; hence soundness and completeness against the point sets of C54 |
| C115 | Random numbers stay in range in floating point | Props/RoundRandom.lean: 1/4294967295 rounds to a known double; monotone rounding gives range and order. `C115_rand_float_not_injective`: in float the top words coincide |
| C116 | Lengths, distances and unit vectors are accurate in floating point | Lemmas/Float.lean: a calculus of relative errors closed under products, quotients, roots and sums of numbers of one sign. Props/RoundVector.lean, Props/RoundMore.lean |
| C117 | Vector identities that hold to the last bit | Props/RoundVector.lean from oddness of rounding and exactness on doubles |
| C118 | Inner and cross products in floating point | Props/RoundVector.lean. `C118_perpendicular_false`: for large components the cut-off, proportional to the smaller vector, does not cover the rounding error: perpendicular vectors of doubles with computed inner product -1 for every rounding |
| C119 | Ball tests in floating point | Props/RoundBall.lean: the relative error calculus gives at most 59 roundings on both sides of the comparison, up to dimension 50; epsilon = 30 * 2^-52 covers 60: `Fl.fudge`. Compared with the point sets of C55 |
| C120 | Midpoints, centres and moved boxes in floating point | Props/RoundMove.lean: halving is exact, rounding is monotone and fixes doubles |
| C121 | Bounding volumes in floating point | Props/RoundBound.lean. `C121_ball_box`, `C121_sphere_partial` (reach of the computed sphere against the exact one); `C121_sphere_contains`: up to dimension 10, for boxes not further from the origin than 4 diagonals, the test finds the box in its sphere. `C121_false`: far from the origin the centre is off by more than the tolerance covers: the box [2^53, 2^53+198] x [0, 40] is not found in its own bounding sphere, whatever the rounding |
| C122 | Quaternion products in floating point | Model/Rounded.lean `qOfComponents`, `qNormalize`, `qMul`, `qDiv`. Props/RoundQuat.lean: absolute errors of each component in terms of the norms, then the invariant of C113 (norm within 2e(age+1) of 1) for the rounded steps. |
| C123 | Rotating vectors by quaternions in floating point | Model/Rounded.lean `rotateQ`. Props/RoundQuat.lean: the computed components against the exact formula (`Fl.rotateQ_err`), the formula against the rotation h v h^-1 (`rotFormula_near`) |
| C124 | Rotation matrices in floating point | Model/Rounded.lean `matVec`, `vecMat`, `prod`, `prodInv`, `invProd`, `invProdInv` (without the renormalisation every 20 products, for which see C137). Props/RoundMatrix.lean: `Spec.Stands m R d` is |m v - R v| <= d |v| for all v; rows and columns of m have length at most 1 + d, so each inner product is off by (n + 1) u (1 + d) times lengths |
| C125 | Coordinate changes of points in floating point | Model/Rounded.lean `toParent`, `toLocal`, `ptRotate` and the quaternion versions. Props/RoundMatrix.lean: a general round-trip lemma (`there_and_back`) for two maps near isometries that are each other's inverse, then C124_vector and Fl.rotateQ_err (C123); Props/RoundMore.lean |
| C126 | Barycenters in floating point | Model/Rounded.lean `barycenter`, `barycenterW`. Props/RoundBary.lean: induction over the running sums with Higham's gamma_k. `C126_false`: the barycenter need not lie in the bounding box of the points (C30): of five copies of the point 7578022325469505 it is 7578022325469506, whatever way ties are broken |
| C127 | Different seeds give different streams | Props/SeedStreams.lean, on the sequence of C08: the tempering, the twist and the first step of the seeding are injective, so the recurrence can be run backwards from 624 words, up to the 31 low bits of the first word, which are never used (`C127_low_bits`) |
| C128 | Seeding without arguments | Model/MTRand.lean `hashBytes`, `hash`, `fillVector`, `seedDefault`: the device is an optional list of words, time and clock are lists of bytes, the static counter is passed along. Props/SeedStreams.lean, with C127_seeds. `C128_false`: the comment in the code that seeds are guaranteed to change is not true; two calls in the same second with suitable clocks leave equal generators |
| C129 | Sloppy lengths and sloppy bounding spheres in floating point | Model/RoundedSphere.lean: `sloppyMag2`, `sloppyMag3`, `sphereSloppy`, `boundingSphereSloppy` with every operation rounded, `check` for assertions. Props/RoundSphere.lean: absolute errors of the two formulas, C19 for the exact formulas, then induction over the second pass with an error of 2^-44 M for each point. `C129_false`: the assertion in the second pass fails for ordinary points |
| C130 | Building rotations in floating point | Model/RoundedRot.lean: the constructors with every operation rounded, Spec/Trig.lean: what is assumed of sin and cos. Props/RoundBuild.lean: the error of each entry, turned into an error of the matrix as an operator (`Spec.Stands`); quaternions are compared with `Spec.rodrigues` through the action of a unit quaternion near the computed one |
| C131 | Turning rotation matrices into quaternions in floating point | Model/RoundedQuat.lean: `fromRotMatrix` with every operation rounded, `none` for the assertion; `fromRotMatrixFull` with the renormalisation that the product with the mirror triggers at age 20. Props/RoundConvert.lean: the pivot (the component whose square is computed) is at least 0.47 in both branches, so the root and its inverse are well conditioned; each component is then compared with the component of the unit quaternion. `C131_wrong`: the reversed sign for rotations by more than 120 degrees; `C131_false`: (1/2, 1/2, 1/2, 1/2), for which nothing is rounded. Props/RoundConvertOld.lean: `C131_young` (below age 20 the two agree), `C131_old_partial` (mirrors of age 20 and more, by the renormalisation theorem of C137) |
| C132 | Validity, parity and age in floating point | Props/RoundValid.lean, Props/RoundValidMore.lean: the flags of every operation of `WFMath.Fl`, by unfolding; the radius of a bounding sphere is nonnegative because rounding is monotone and keeps 0 |
| C133 | The generator's stream repeats from its start | Props/Period.lean: what later words depend on is 623 words and one bit; the step on these states is injective (C127), so a repeated state, which the pigeonhole principle gives, can be pulled back to the first; the dead state is excluded by C127_alive |
| C134 | Tests with line segments in floating point | Model/RoundedSeg.lean: the tests with every operation rounded. Props/RoundSeg.lean: backward error (the quotients computed are the exact quotients for moved faces). Props/RoundSegBall.lean: error of the computed foot of the perpendicular, and that moving the foot along the line changes the distance little. Props/RoundSegPoint.lean: on the segment all products have one sign, so both sides of the comparison are one number up to 26 roundings; off it, Cauchy-Schwarz with a margin. Props/RoundSegIn.lean: from these by convexity |
| C135 | Rotated boxes in floating point | Spec/TurnedBox.lean: the box turned by an exact matrix. Model/RoundedRBox.lean: the functions with every operation rounded. Props/RoundRBox.lean: points and corners; Props/RoundRBoxBound.lean: the running sums of the bounding box by induction; Props/RoundRBoxTest.lean, RoundRBoxSeg.lean: balls and segments, from C119 and C134 for the box unturned; Props/RoundRBoxBox.lean: boxes, from the bounding box of the box seen from the other; Props/RoundRBoxPlane.lean: two tests of bounding boxes, and Helly's theorem in the plane (`sat2`) for their converse; Props/RoundRBoxTwo.lean: two rotated boxes. Model/RoundedSat.lean, Props/RoundSat.lean, RoundSatTest.lean, RoundSatSpace.lean, RoundSatTwo.lean: the nine tests in space, each compared with the exact extents along the exact normal, and the converse from `sat3` after moving a point by the margin over lambda. Cases/RotatedRounding.lean, RotatedSpace.lean |
| C136 | Plane polygons in floating point | Model/RoundedPoly.lean. Props/RoundPoly.lean: the computed crossing of a side with a line is within 11 2^-52 times the coordinates of the exact one, so that outside the margin all comparisons agree with exact arithmetic and C74 applies (`C136_point`); `C136_side`. Props/RoundPolyShapes.lean: the same for the loops over a box, with C98 and C99 (`C136_box`); balls from C134 and the connectedness argument of C97 (`C136_ball`, `C136_ball_converse`); `C136_in_box`, `C136_in_ball`, `C136_in_point`. Props/RoundPolyFalse.lean: `C136_side_false`, a corner that is rejected, and examples |
| C137 | Renormalising rotation matrices in floating point | Model/RoundedGauss.lean. Lemmas/RoundNormRow.lean: the residual B M - A of one row under scaling and clearing; Lemmas/RoundNormTwo.lean, Lemmas/RoundNormThree.lean: the computed elimination written out, its pivots compared with the exact leading minors, and the residuals of all rows; Lemmas/RoundNormPolish.lean: averaging m with an approximate inverse transpose squares the defect. Props/RoundNorm.lean `C137_plane_partial`, `C137_space_partial`. Props/RoundDrift.lean `C137_drift_plane_partial`, `C137_drift_space_partial`: `Spec.Turns` is the inductive set of matrices a program can make, `Spec.KeepsLength` the bound; the invariant ties the error to the age. Props/RoundNormFalse.lean `C137_false`, `C137_product_false`: the run of the elimination for one matrix, for every tie rule |
| C138 | Setting a rotation matrix from numbers in floating point | Model/RoundedGauss.lean `Fl.setVals`, `Fl.setValsLoop`, `Fl.determinantImpl`. Lemmas/RoundSetVals.lean: the computed departure from orthogonality against the exact one; Lemmas/RoundDet.lean: the sign of the computed determinant against the exact one when the leading minors are large enough. Props/RoundSetVals.lean `C138_accepts`, `C138_refuses`, `C138_orthogonal`, `C138_parity_plane`, `C138_parity_space_partial`; Props/RoundSetValsPlane.lean `C138_improves_plane_partial`; Props/RoundSetValsFalse.lean `C138_false` and cases for all of these |
| C139 | Rotations and reflections given by directions in floating point | Model/RoundedDir.lean repeats the four functions with every operation rounded. Each element of the matrix is compared with the exact one (`Lemmas/RoundDir.lean`); the exact matrix is shown to be the rotation or reflection meant; opposite vectors by the relative error of an inner product of terms of one sign. Three counterexamples with exact roundings. |
| C140 | Polygons in space in floating point | Model/RoundedPoly3.lean repeats expand, convert, addCorner and getCorner with every operation rounded. Lemmas/RoundPoly3.lean: what one step of the orthogonalisation does to the residue, then one call of expand, by cases on the branch taken; induction over the history as for C72. The axes can be oblique (by about 2^-23 when the first three corners are nearly collinear), because the residue is orthogonalised only once; the bound on corners contains that angle, and C140_angle bounds it. Lemmas/RoundAccept.lean: a point near the plane leaves a small residue. |
| C141 | Moving and turning shapes in floating point | Model/RoundedMove.lean repeats the moving and turning members with every operation rounded. Lemmas/RoundShapeMove.lean: a rounded sum with a rounded difference, the rounded middle, and turning about a point near the centre instead of the centre itself; the single points come from C125, C126 and C135. Spec/TurnedBox.lean gives the exact corners and the exact centre of a turned box. |
| C142 | Overflow and underflow in lengths, distances and comparisons | Spec/Ieee.lean gives doubles as finite numbers, infinities and NaN, with rounding to nearest down to 2^-1074. Model/Ieee.lean repeats the functions with them. Lemmas/Ieee.lean: a rounding of doubles agrees with a rounding to 53 digits from 2^-1022 on, and intervals of powers of two bound every intermediate result, so the theorems on rounding (C114, C116, C119) carry over. Props/IeeeAny.lean drops the lower limits: squares that underflow change a sum by at most 2^-1075 each, and differences of doubles never underflow (Lemmas/IeeeAny.lean) |
| C143 | NaN coordinates | Same model as C142. NaN is followed through the sums and comparisons; a comparison with NaN is false, so `!(a > b)` accepts and `a <= b` rejects. |
| C144 | Moving and turning polygons in space in floating point | Model/RoundedPoly3Move.lean repeats the moving and turning members of Poly2Orient and Polygon with every operation rounded. Spec/PolyPlane.lean says what nearly perpendicular unit axes are. Lemmas/RoundPoly3Move.lean: reading a corner is near the exact combination of the axes; a plane whose origin and axes come near their images under a rigid map gives corners near their images. C144_built supplies the hypothesis for every history of addCorner. Turning about a corner or the centre by a quaternion turns about the origin of the plane instead: C144_false, and C144_quaternion_corner_partial and C144_quaternion_center_partial say what happens. The quaternion frames turn the first axis twice (see C68): C144_frames_false, and C144_quaternion_frames_partial says what happens. |
| C145 | Sums, midpoints, rotations and coordinate changes over the whole range of doubles | Model/IeeeMove.lean in the model of C142. A sum of two doubles is a multiple of 2^-1074, so it is rounded as if there were no smallest exponent; a product below 2^-1022 is off by at most 2^-1075 (Lemmas/IeeeMove.lean). With bounds on every intermediate result this carries the error theorems of C125, C126 and C141 over; for quaternions every operation gets its own error and size bound (`Ie.Val` in Lemmas/IeeeQuat.lean). Barycenter adds the coordinates before dividing: C145_false, and C145_barycenter_partial up to 2^1000. Midpoint halves both points first: C145_midpoint_false. |
| C146 | Quaternions made from numbers over the whole range of doubles | Model/IeeeQuat.lean in the model of C142. Lemmas/IeeeNorm.lean: a relation between a computed sum of squares and the exact one that allows a relative error and a multiple of 2^-1075, kept by rounded squares and sums; from 2^-900 on the second error is below a millionth of a unit in the last place, so the root and the quotients have a relative error. C146_large, C146_small, C146_axis_large and C146_false: beyond this range squares overflow or underflow, and the quaternion is still marked valid |
| C147 | Rotated boxes turned by quaternions and taken to other frames in floating point | Model/RoundedRBoxMove.lean: the functions of rotbox.cpp and rotbox.h with rounded operations. The corner moves as a point (C125), the orientation as a matrix (C124, C130), and the exact corners of the result differ from the exact moved corners only by the error of the first corner, so nothing depends on the number of corners |
| C148 | Axis-aligned boxes of doubles, also with infinite corners | Spec/IeeeExt.lean: doubles that are not NaN as extended reals. Model/IeeeBox.lean: the functions with doubles. The comparisons of doubles are those of the extended reals; a difference is NaN only for equal infinities, and then the tests take the branch that accepts, as they should; C148_nan says what NaN does |
| C149 | Points and polygons in space in floating point | Model/RoundedPoly3Inter.lean repeats `offset`, `checkContained` and the tests with every operation rounded. Lemmas/RoundPoly3Inter.lean bounds the error of the projection: the point is the computed point of the plane plus the computed offset up to 12 units of roundoff of its distance from the origin of the plane, and the offset of a point near the plane is small even though the axes are only nearly perpendicular. With C136 for the test in the plane this gives C149_outside, C149_inside_partial and C149_near. C149_false: the origin of space is in a triangle and not found. |
| C150 | Bounding spheres in floating point | Model/RoundedMiniball.lean repeats Model/Miniball.lean with every operation rounded. Lemmas/RoundMiniball.lean: the computed excess of a point against the exact one, and that the construction only permutes the points and keeps squares of radii from being negative, whatever the comparisons say. The final assertion then gives C150_encloses and C150_touches for every ball that is returned. C150_pair follows the construction for two points, and C150_pair_returns bounds the errors of center and radius by less than the 60 units the assertion allows. C150_equal and C150_false: for equal points, and for two neighbouring doubles, the assertion fails. |
| C151 | Balls that contain polygons in space in floating point | Model/RoundedPoly3Inter.lean `Fl.containsBallPolyN`. Lemmas/RoundBallPoly3.lean: the computed offset is nearly perpendicular to both axes (`offset_dots`), so that the squares add up (`pythagoras_err`); the cut-off of the squared distance in the plane adds to the tolerance (`sqDist_plane`). Props/RoundBallPoly3.lean: both directions, and convexity of balls for the hull. The corners are the exact points of the plane with the stored coordinates; what getCorner makes of them is C140 |
| C152 | Polygons in space that meet balls in floating point | Model/RoundedPoly3Inter.lean (`Fl.interPolyBallN`). Lemmas/RoundBallInter3.lean: the errors of the projection (from C151) for all points of the plane, and the arithmetic that a gap in the squares is larger than the margins of the test in the plane, C136_ball, and conversely; a corner so near to the projected center that its squared distance is set to 0 is itself a point of the polygon in the ball. C152_false: the root of a negative number. |
| C153 | Boxes that contain polygons in space in floating point | Model/RoundedPolyBox.lean (`Fl.containsBPolyN`, `Fl.containsRPolyN`). Props/RoundPolyBox.lean: the loop over the corners says that each of them passes the test of C114; C140_default relates the corners that are read to the points that were added, C144_rotate relates the corners of the turned polygon to those of the polygon, and the faces of the unturned box are those of C135. |
| C154 | Segments that meet polygons in space in floating point | Model/RoundedPolySeg.lean (`Fl.interSS`, `Fl.interPolyS`, `Fl.interPolySn`). Lemmas/RoundPolySeg.lean: the offset of an end is its height times the normal up to an error (C140), so the sign of the product of the two offsets is that of the product of the heights; the weighted mean is within `crossError` of the crossing point. C136 then decides the point in the plane. `C154_normal`: in space every segment has such heights. `C154_false`: small integers are exact, and a segment through a triangle in its plane is missed. |
| C155 | Segments and rotated boxes that contain polygons in floating point | Model/RoundedPolyIn.lean (`Fl.containsSPoly`, `Fl.containsSPolyN`, `Fl.containsRPoly`). Props/RoundPolyIn.lean: each corner by C134 (points and segments) or C135 (points and rotated boxes); in space the ends of the segment and the corners are all expressed in the plane after both calls of expand, whose error is that of C140, and the distance in the plane is at least a third of that in space. |
| C156 | Plane polygons and rotated boxes in floating point | Model/RoundedPolyRBox.lean (`Fl.interPolyR`, `Fl.containsPolyR`). Lemmas/PolyStable.lean: the parity of the crossings is locally constant while the corners move, hence constant on the unit interval (`inside_stable`). Props/RoundPolyRBox.lean: the loops answer as the exact ones for the polygon and box as computed (C136, with edges in either direction), which are within the error of C135 of the exact ones in the coordinates of the box. |
| C157 | Plane polygons and points moved together in floating point | Model/RoundedMove.lean and Model/RoundedPoly.lean. Props/RoundPolyMoved.lean: the computed corners and point are within the error of C125 and C135 of the exact ones; the error of the point is moved over to the corners, `inside_stable` (Lemmas/PolyStable.lean) takes the computed polygon to the exactly moved one, and the parity is invariant under isometries (C98). |
| C158 | Plane polygons and points after any history of motions in floating point | Model/RoundedHistory.lean: a history is a list of the calls of Model/RoundedMove.lean. Props/RoundHistory.lean: induction over the history; each call is an exact isometry up to (E + 5 2^-53) 2M, and isometries do not enlarge the error of the calls before. The composed isometry then goes into `Fl.moved_point` of C157. For turns about one point the distance from it grows by at most as much in each call. Cases: the unit square turned N times, N at most 2^40, and one shifted and turned. |
| C159 | Distances, balls and points after any history of motions in floating point | Model/RoundedSteps.lean: a history is a list of the calls for points and balls, with matrices and quaternions. Props/RoundSteps.lean: induction over the history; each call is an exact isometry up to (2E + 2^-51) 2M (C125), and isometries do not enlarge the error of the calls before. The ball tests then follow from C119. Cases: two points of space turned N times by a quaternion, N at most 2^30, and a ball and points shifted and turned. |
| C160 | Segments, balls and points after any history of motions in floating point | Model/RoundedSegSteps.lean: the calls of a history made for a segment. Props/RoundSegSteps.lean: the calls move both ends as they move points; the history is an exact isometry up to the roundings (C159), and the distance to a point between the ends is determined by the distances to the ends (Stewart's theorem). The tests then follow from C134. Cases: a segment with two balls and a point, shifted and turned, and a segment of space turned N times by a quaternion, N at most 2^30. |
| C161 | Plane polygons and balls after any history of motions in floating point | Model/RoundedBallHistory.lean: the calls of a history made for a ball of the plane. Props/RoundBallHistory.lean: the history is an exact rotation or reflection and shift up to d (C158). When the corners of a polygon move by at most d, each of its points has a point of the moved polygon within 2 d, and a point with all points within 2 d inside stays inside; so the sets of the start and of the end agree up to 3 d, and the tests follow from C136. Cases: the unit square with balls about its middle, shifted and turned. |
| C162 | Barycenters and polygon centres after any history of motions in floating point | Nothing new is modelled. Props/RoundBarySteps.lean: the history is an exact map that keeps distances, up to the drift (C158, C159). By Stewart's theorem such a map keeps the points between two points, so by induction on the list it keeps the mean of any list. The mean of the moved points is within the drift of the moved mean, and the two barycenters are within their rounding of the two means (C126). Cases: the unit square, shifted and turned. |
| C163 | Bounding spheres moved together with their points in floating point | Nothing new is modelled. Props/RoundSphereSteps.lean: the history keeps the distances of the points from the centre up to d (C159); the sphere at the start encloses the points and touches one (C150, C129). Cases: the spheres of two points of the plane, shifted and turned. |
| C164 | Histories of motions taken back in floating point | Model/RoundedUndo.lean: the call that takes back a call, and a history taken back. Props/RoundUndo.lean: each call and the one that takes it back are exact maps that keep distances, each the other's inverse, up to rounding (C125); by induction on the history the same holds for the whole history and the calls that take it back. Cases: a point of space turned up to 2^30 times and back, and points, a ball and a segment taken to another frame, shifted and taken back. |
| C165 | Histories of motions of plane polygons taken back in floating point | Model/RoundedUndoPoly.lean: the call that takes back a call of a polygon's history, and a history taken back. Props/RoundUndoPoly.lean: the corners go through the calls as points do, so each comes back (C164); a polygon whose corners move by at most d keeps the even-odd answer for points farther than d from its boundary. Cases: the unit square taken to another frame, shifted and taken back. |
| C166 | Rotated boxes after any history of motions in floating point | Model/RoundedRBoxSteps.lean: the call of a history made for a rotated box, one after the other. Props/RoundRBoxSteps.lean: each call moves points and turns orientations by one and the same rotation up to rounding (C125, C124, C130); by induction on the history the rotations compose and the errors add up (for points) or multiply (for orientations); C135 turns this into corners and centre. Cases: the unit square shifted and turned. |

## Where the code and the properties disagree

Each entry is a theorem that the full property fails for a concrete input, given in the statement or its proof; the
`_partial` theorems of the same number say what does hold.

| Theorem | What the code does |
|---|---|
| `C06_millis_roundtrip_false` | `TimeDiff(1).milliseconds()` is 0 and `TimeDiff(-1000).milliseconds()` is -2000: the remaining milliseconds are stored as microseconds without the factor 1000, and a second is always borrowed for negative values |
| `C19_false` | `Vector<3>::sloppyMagMax()` is a `float` literal rounded below the true maximum |
| `C20_false` | For the same reason `sloppyNorm` in three dimensions can give a length below norm / `sloppyMagMax()`, by a relative error of less than 2·10⁻⁸. |
| `C22_false` | `Cross` of two plane vectors returns 0 for every negative result (no absolute value before the cut-off), so it is not antisymmetric |
| `C23_false`, `C92_parallel_false`, `C92_perp_false` | for very short vectors `Angle(v, v)` is a right angle, perpendicular vectors are found parallel, a vector perpendicular to itself: the cut-offs do not scale |
| `C27_false`, `C27_spherical_false` | `asPolar`/`asSpherical` call `atan2` with swapped arguments |
| `C33_false` | a quaternion product whose inner product is flushed to 0 is not a unit quaternion |
| `C36_false`, `C36_wrong` | `Quaternion::fromRotMatrix` has a sign error for matrices with trace at most 0 |
| `C43_false` | `rotation(from, to)` in two dimensions turns the wrong way for almost opposite vectors |
| `C47_false`, `C47_determinant_false` | inversion refuses invertible matrices with small pivots; in the determinant a nonzero pivot below the threshold is overwritten instead of added to |
| `C48_false` | `RotMatrix::fromQuaternion` with `not_flip = false` makes a mirror (determinant -1) whose parity flag says that it is not one |
| `C49_false`, `C52_segment_false` | a box made from two invalid points is marked valid; so is the bounding box of an invalid segment |
| `C54_trans_false` | tolerant containment of boxes is not transitive |
| `C56_box_false`, `C56_rotbox_false` | bounding spheres of tiny shapes have radius 0; the sloppy sphere of a rotated box uses the square of the diagonal |
| `C58_false` | with assertions compiled in, `BoundingSphere` of one point or of equal points aborts |
| `C60_false`, `C61_false`, `C62_false` | segments: microscopic segments against balls; points off a short segment; the crossing test of two segments has its comparison the wrong way round |
| `C66_false` | the separating-axis test uses cross products of nearly parallel edges without normalising them and reports boxes 3 apart |
| `C66_shared_false` | In space the inner products of the edges with the tried normal are cut off before they are multiplied by the sizes: a rod of length 2^53 that goes right through a slab of thickness 1 is not found to intersect it. |
| `C68_false`, `C68_polygon_false`, `C70_false`, `C70_center_false` | coordinate changes of rotated boxes by matrices and of polygons by quaternions, turning polygons by quaternions about a corner or about their centre |
| `C72_false`, `C73_false`, `C73_moved_false` | `Polygon<3>`: the tolerance is applied to squared lengths; removing a corner can fail an assertion, or move another corner by 1/8 |
| `C77_polygon3_false`, `C77_empty_false`, `C77_low_precision_false`, `C77_fromString_false`, `C91_false` | printing and reading: `Polygon<3>` with a number of corners other than three, streams of low precision, `FromString` ignores its precision, readers that never return on texts without the expected character |
| `C78_append_false`, `C78_few_false`, `C78_rotbox_false`, `C79_*_false` | Atlas messages: corners appended, one or two corners rejected, orientation lost, bad messages accepted |
| `C81_false`, `C94_false`, `C95_gaussian_false` | probability functions: two wrong table entries, an assertion that fails on an interval, a wrong prefactor in `IncompleteGamma` |
| `C83_false`, `C84_false`, `C85_false` | `q *= q` reads overwritten fields; `RotMatrix::fromQuaternion` stands for the inverse rotation under `rotate`, and is marked valid for an invalid quaternion |
| `C113_false` | `q *= r` renormalises `q` before the multiplication and restarts its age, keeping the error of `r`: the norm of a product that counts as fresh can be anything in (0, 1) |
| `C118_perpendicular_false` | in doubles, `Dot` of large perpendicular vectors need not be 0: the cut-off grows with the smaller vector, the rounding error with the product of both |
| `C121_false` | in doubles, `Contains(box.boundingSphere(), box)` is false for some boxes far from the origin: the centre is rounded to the spacing of doubles at its distance from the origin, the tolerance grows only with the size of the box |
| `C126_false` | in doubles, `Barycenter` of five equal points need not be that point, hence not in their bounding box (C30): the running sums are rounded |
| `C128_false` | The comment in `hash` (randgen.cpp) that time-based seeds are guaranteed to change is not true: two consecutive calls of `seed()` in the same second, at 28131 and 36385 clock ticks, leave equal generators. |
| `C129_false` | `BoundingSphereSloppy` can fail its own assertion in doubles: for the points (7/8 + 2^-53, 0), (9/8, 0), (9/8, 0) the middle 1 + 2^-54 is rounded to 1, the second copy of (9/8, 0) is outside by 2^-53, the centre cannot be moved by 2^-54, and the enlarged ball does not contain the point. In exact arithmetic the assertion always holds (C57). |
| `C131_false`, `C131_wrong` | in doubles too, `fromRotMatrix` reverses the sign of one component for rotations by more than 120 degrees (see `C36_false`): (1/2, 1/2, 1/2, 1/2) comes back as (1/2, -1/2, 1/2, 1/2) |
| `C136_side_false` | in doubles, `Intersect(polygon, corner)` is false for the corner (3·2^-55, 0) of the triangle with the other corners (1, 1) and (1, -1): the computed crossing is off by 2^-55 and the tolerance is scaled to the small coordinate |
| `C137_false`, `C137_product_false` | in doubles, `normalize()` can ruin a good matrix: elimination without row exchanges divides by a tiny first entry. A quarter turn of the plane that is accurate to 2^-52 gets the entry -16, also when the renormalisation is that of a product |
| `C138_false` | in doubles, `setVals` can store a reflection of space as a rotation: the elimination for the determinant divides by a tiny first entry and comes out 0, which counts as positive. A reflection accurate to 2^-51 with first entry 2^-60 gets `determinant()` 1 |
| `C139_false` | in doubles, `rotation(v1, v2, theta)` does not notice parallel vectors: for v1 = (649, 2^-14) and v2 = 2^20 v1 the computed perpendicular part is (-2^-23, 0), which passes the test, and the result for theta = 2 makes the first axis longer by a quarter |
| `C139_nan_false` | in doubles, `rotation(from, to)` in two dimensions takes the square root of a negative number for from = (1 + 2^-27, 0) and to = (-1 - 3 2^-27, 0): the elements are NaN and the matrix is marked valid |
| `C139_quat_false` | in doubles, the quaternion of `rotation(from, to)` for from = (1, 0, 0) and to = (-1, 1019 2^-33, 0), which is nearly opposite, has a squared norm above 1.01 |
| `C112_tolerant_false` | The tolerant `Contains` of a polygon in a segment accepts polygons off the segment: the one-corner polygon at the origin is accepted in the segment from (1/10000, 0, 0) to (0, 1/10000, 0), at least 1/20000 away. |
| `C68_polygon_local_false` | `Polygon<3>::toLocalCoords(origin, Quaternion)` turns the first axis of the plane twice and the second not at all, like `toParentCoords`. |
| `C27_point_false` | The polar and spherical coordinates of points share the swapped `atan2` arguments of vectors. |
| `C93_false` | `Intersect(polygon, point)`: the middle of the lower side of a square counts as properly inside, the middle of the upper side as outside |
| `C98_false`, `C99_false` | `Intersect(polygon, box)` misses a polygon inside the box; a polygon and a box that are the same set are said not to properly intersect, and the one not to contain the other |
| `C100_false`, `C100_contains_false`, `C101_false`, `C101_contains_false` | consequences of `C62_false`, and reads past the end of the corners |
| `C103_false`, `C104_false`, `C106_false`, `C107_false`, `C107_contains_false`, `C108_false`, `C110_false`, `C110_position_false`, `C110_perpendicular_false`, `C111_false`, `C111_position_false` | polygons in space: see the rows of C103 to C111 |
| `C110_single_false`, `C111_single_false` | a polygon whose corners are all one point meets no polygon and is contained in none that has corners, not even in itself (`C110_single`, `C111_single`): the plane test finds nothing in it, and the plane point it is compared with is never marked valid |
| `C142_false` | a vector with a component of 2^512 is normalised to the zero vector, one with components below 2^-538 to infinities and NaN: the squares overflow or underflow |
| `C143_false` | `isEqualTo` of vectors, points and matrices tests `fabs(a - b) > delta`, which is false for NaN, so NaN is equal to everything; `SquaredDistance` and `Dot` test `fabs(ans) >= delta`, which is false too, so the distance to a NaN point is 0 |
| `C144_false` | the half turn about (0, 0, 1) given as a quaternion, asked to turn the triangle (0,0,0), (1,0,0), (0,1,0) about its corner (1,0,0), takes that corner to (-1,0,0): `shift - shift.rotate(q)` turns `shift` in place before it is subtracted, also in doubles |
| `C144_frames_false` | toParentCoords with the origin and the same half turn given as a quaternion leaves all three corners of that triangle where they are, although it takes the point (1,0,0) to (-1,0,0): the first axis is turned twice and the second not at all, also in doubles |
| `C145_false` | the barycenter of two points at 2^1023 is infinite: the coordinates are added before they are divided |
| `C145_midpoint_false` | the midpoint of the smallest double 2^-1074 with itself is not 2^-1074: each is halved, and so rounded to 0 or back up, before they are added |
| `C146_false`, `C146_large` | a quaternion made from four numbers one of which is 2^512 or more, or read from Atlas with 2^600 in the list, has all components 0 and is marked valid: the square overflows and the components are divided by infinity |
| `C146_small` | a quaternion made from four numbers below 2^-538 has infinite and NaN components and is marked valid: the squares underflow |
| `C146_axis_large` | `rotation(axis, angle)` with an axis of 2^512 or more has a vector part of 0, whatever the angle, and is marked valid |
| `C147_false` | a rotated box taken to the parent frame and back with a matrix comes back turned, with rounding as without (C68_false): `toLocalCoords` multiplies the orientation by the rotation on the wrong side |
| `C149_false`, `C149_zero_false` | the origin of space is never found in a polygon in space, with rounding as without (C103_false): the tolerance of the test is relative to the distance of the point from the origin |
| `C150_false`, `C150_equal` | BoundingSphere with assertions aborts for two different points that are close together compared with their coordinates, such as (1, 0) and (1 + 2^-52, 0), because no double lies near enough to the midpoint, and for equal points, because the accuracy is then a quotient by 0 |
| `C152_false` | Intersect(polygon, ball) in space with tolerance takes the root of a negative number, also with rounding, when the ball ends just short of the plane; a ball of radius 0 at height 2^-30 above a triangle is an example |
| `C148_nan` (outside the property) | the union of a box with NaN corners and another box drops or keeps the NaN depending on the order of the operands, and a box with NaN corners meets, and is in, every box |
| `C154_false` | a segment in the plane of a polygon that crosses it from outside to outside is found to miss it, in doubles as with exact arithmetic (`C106_false`): the test of two segments has its comparisons the wrong way round |

## Not modelled

* IEEE rounding outside `Model/Rounded.lean`, `Model/RoundedSphere.lean`, `Model/RoundedRot.lean`, `Model/RoundedQuat.lean`, `Model/RoundedSeg.lean`, `Model/RoundedRBox.lean`, `Model/RoundedSat.lean`, `Model/RoundedPoly.lean`, `Model/RoundedGauss.lean`, `Model/RoundedPoly3Inter.lean`, `Model/RoundedPolyBox.lean`, `Model/RoundedPolySeg.lean`, `Model/RoundedPolyIn.lean`, `Model/RoundedPolyRBox.lean`, `Model/RoundedHistory.lean`, `Model/RoundedSteps.lean`, `Model/RoundedSegSteps.lean`, `Model/RoundedBallHistory.lean`, `Model/RoundedUndo.lean`, `Model/RoundedUndoPoly.lean`, `Model/RoundedRBoxSteps.lean`, `Model/RoundedMiniball.lean`, `Model/RoundedDir.lean`, `Model/RoundedPoly3.lean` and `Model/RoundedMove.lean`, `Model/RoundedPoly3Move.lean`, `Model/RoundedRBoxMove.lean`; overflow, underflow and NaN outside `Model/Ieee.lean` (comparisons, lengths, distances, a point in a ball or box), `Model/IeeeBox.lean` (axis-aligned boxes), `Model/IeeeQuat.lean` (making quaternions), `Model/IeeeMove.lean` (sums, midpoints, barycenters, turning, coordinate changes) and the Atlas conversions; the sign of zero.
* `Miniball::slack` and `is_valid`: they only report; the pivot loop of `BoundingSphere` is modelled with the stack of the support set as a list.
* The contents of `/dev/urandom` and the values of `time`, `clock` and `TimeStamp::now()`, which are inputs of the model.
* `wrapped_array.h`, exception class layout, template instantiation lists.
