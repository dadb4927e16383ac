{"id": "C01", "title": "IntToString(unsigned long) prints the canonical decimal numeral", "statement": "IntToString(n) for an unsigned long n returns exactly the base-10 numeral of n: reading the digits back gives n, there is no leading zero unless n is 0, and the character writes never leave the fixed local buffer.", "quantifier": "every 64-bit unsigned value", "why_tests_cant": "2^64 inputs; a test samples a handful and cannot exclude a buffer overrun or digit error elsewhere", "anchors": ["src/wfmath/int_to_string.cpp: DoIntToString, ul_max_digits, IntToString(unsigned long)"]}
{"id": "C02", "title": "IntToString(long) prints the canonical signed numeral", "statement": "IntToString(n) for a signed long returns '-' followed by the numeral of |n| when n<0 and the numeral of n otherwise, including the most negative value, and never leaves its buffer; distinct values print differently.", "quantifier": "every 64-bit signed value including LONG_MIN", "why_tests_cant": "2^64 inputs, and the interesting one (LONG_MIN) is a single boundary where naive negation overflows", "anchors": ["src/wfmath/int_to_string.cpp: SafeAbs, IntToString(long)"]}
{"id": "C03", "title": "Valid time values stay normalised through every history", "statement": "Starting from valid, normalised time stamps and time differences, any sequence of +, -, +=, -= and construction from (sec, usec) with usec inside (-1000000, 2000000) produces values whose microsecond part lies in [0, 1000000). full_time() is the whole seconds, rounded down, and the microseconds that remain.", "quantifier": "every finite sequence of operations on time stamps and differences", "why_tests_cant": "histories are unbounded; a missed carry shows up only for particular microsecond sums", "anchors": ["src/wfmath/timestamp.cpp: regularize, operator+=, operator-=", "src/wfmath/timestamp.h: TimeDiff, TimeStamp"]}
{"id": "C04", "title": "Time arithmetic is exact and cancels", "statement": "For valid operands (t + d) - t == d, (t - d) + d == t, (a - b) + b == a, and addition of differences is commutative and associative, all as exact microsecond counts.", "quantifier": "all valid time stamps and differences", "why_tests_cant": "an algebraic law over an unbounded domain with carries and borrows", "anchors": ["src/wfmath/timestamp.cpp: operator+, operator-, operator+=, operator-="]}
{"id": "C05", "title": "Time comparison is the order of real time", "statement": "On valid values <, ==, > , <=, >=, != agree with comparison of the total number of microseconds, hence form a strict total order compatible with addition.", "quantifier": "all pairs (triples) of valid time values", "why_tests_cant": "totality and transitivity quantify over all triples", "anchors": ["src/wfmath/timestamp.cpp: operator<, operator==", "src/wfmath/timestamp.h: operator>, operator<=, operator>=, operator!="]}
{"id": "C06", "title": "A time difference built from milliseconds reports those milliseconds", "statement": "TimeDiff(m).milliseconds() == m for every number of milliseconds m.", "quantifier": "every long m", "why_tests_cant": "a round trip over all values; the repository's test only checks validity of TimeDiff(1000)", "anchors": ["src/wfmath/timestamp.cpp: TimeDiff::TimeDiff(long), TimeDiff::milliseconds"]}
{"id": "C07", "title": "Invalid time values are contagious", "statement": "The result of an arithmetic time operation is valid exactly when all its operands are valid, through any chain of operations.", "quantifier": "every expression over time stamps and differences", "why_tests_cant": "expression trees are unbounded", "anchors": ["src/wfmath/timestamp.cpp: operator+=, operator-=, operator-"]}
{"id": "C08", "title": "MTRand emits exactly the Mersenne Twister MT19937 sequence", "statement": "After seeding with any 32-bit value, the k-th call of randInt() returns the k-th tempered output of the MT19937 recurrence started from the standard initialisation of that seed.", "quantifier": "every seed and every number of draws, with no bound on the number of draws", "why_tests_cant": "period 2^19937-1; a test vector checks a prefix for one seed", "anchors": ["src/wfmath/randgen.cpp: MTRand::seed(uint32), MTRand::randInt()"]}
{"id": "C09", "title": "Generator state never indexes outside its table", "statement": "In every sequence of seed (single value or non-empty array), randInt, save/load operations starting from a constructed generator, every table access is inside the 624-word table.", "quantifier": "every history of generator calls", "why_tests_cant": "an invariant over unbounded histories", "anchors": ["src/wfmath/randgen.cpp: MTRand::seed, MTRand::randInt, MTRand::save, MTRand::load", "src/wfmath/randgen.cpp"]}
{"id": "C10", "title": "Saving and loading a generator resumes the identical stream", "statement": "Writing a generator to a stream and reading it back gives a generator whose entire future output equals the original's.", "quantifier": "every generator state and every number of subsequent draws", "why_tests_cant": "future output is infinite and the state space is 2^19968", "anchors": ["src/wfmath/randgen.cpp: MTRand::save, MTRand::load", "src/wfmath/stream.cpp: operator<<, operator>> (MTRand)"]}
{"id": "C11", "title": "randInt(n) stays in range and is unbiased", "statement": "Whenever randInt(n) returns, its value is at most n, and each value 0..n is produced by the same number of underlying 32-bit words.", "quantifier": "every bound n and every 32-bit word", "why_tests_cant": "exact uniformity is a counting statement over 2^32 words for each of 2^32 bounds", "anchors": ["src/wfmath/MersenneTwister.h: MTRand::randInt(uint32)"]}
{"id": "C12", "title": "rand() family stays in its documented interval", "statement": "rand() lies in [0,1], randf/rand(max) in [0,max] for max >= 0, and the extreme words give exactly the end points; the map from words to reals is strictly increasing.", "quantifier": "every 32-bit word and every max", "why_tests_cant": "all words", "anchors": ["src/wfmath/MersenneTwister.h: MTRand::rand"]}
{"id": "C13", "title": "Shuffle returns a permutation and is fair", "statement": "Shuffle(c) leaves the container a permutation of its input whatever the generator returns, and different choice sequences give different permutations so every permutation of the positions is produced by exactly one choice sequence.", "quantifier": "every container size and every sequence of random choices", "why_tests_cant": "n! outcomes for every n", "anchors": ["src/wfmath/shuffle.h: Shuffle"]}
{"id": "C14", "title": "Tolerant scalar equality is reflexive, symmetric and scale-relative", "statement": "Equal(x,y,eps) with eps >= 0 is reflexive and symmetric, implies |x-y| <= 2*eps*min(|x|,|y|) when both are nonzero, holds whenever |x-y| <= eps*min(|x|,|y|), and for two nonzero numbers is invariant under scaling both by a power of two; against zero the tolerance is absolute (Equal(x,0,eps) iff |x| <= eps).", "quantifier": "all finite scalars and tolerances", "why_tests_cant": "laws over all pairs; depends on exponent extraction at every binade boundary", "anchors": ["src/wfmath/const.cpp: Equal, _ScaleEpsilon"]}
{"id": "C15", "title": "Clamp, min and max", "statement": "FloatClamp(v,lo,hi) with lo<=hi lies in [lo,hi], returns v when v is already inside, and is the point of [lo,hi] nearest to v; FloatMin/FloatMax are the lattice min and max.", "quantifier": "all finite scalars", "why_tests_cant": "all triples", "anchors": ["src/wfmath/const.h: FloatClamp, FloatMin, FloatMax"]}
{"id": "C16", "title": "Validity of vector expressions is the conjunction of the leaves", "statement": "The validity flag of any expression built from vectors by +, -, unary -, scaling and division equals the conjunction of the validity of all vectors in it.", "quantifier": "every expression tree", "why_tests_cant": "expression trees are unbounded", "anchors": ["src/wfmath/vector_funcs.h: operator+=, operator-=, operator*=, operator/=, operator-"]}
{"id": "C17", "title": "Vector arithmetic is a vector space", "statement": "Component values follow the vector space laws, in place operators agree with binary ones, and v/s followed by *s (s nonzero) restores v.", "quantifier": "all vectors and scalars in every dimension", "why_tests_cant": "algebraic laws over all reals", "anchors": ["src/wfmath/vector_funcs.h"]}
{"id": "C18", "title": "Dot returns the inner product up to its documented cut-off", "statement": "Dot(a,b) either equals the exact inner product or is 0 while the exact value is below epsilon scaled by the smaller vector; it is symmetric, and Dot(a,b)=0 if either is zero.", "quantifier": "all vectors in every dimension", "why_tests_cant": "cut-off depends on magnitudes; all pairs", "anchors": ["src/wfmath/vector_funcs.h: Dot", "src/wfmath/const.cpp: _ScaleEpsilon"]}
{"id": "C19", "title": "sloppyMag brackets the true length", "statement": "mag() <= sloppyMag() <= sloppyMagMax() * mag() in 1, 2 and 3 dimensions.", "quantifier": "all vectors", "why_tests_cant": "an inequality over all directions; worst directions are isolated points a sample misses", "anchors": ["src/wfmath/vector.cpp: Vector<2>::sloppyMag, Vector<3>::sloppyMag", "src/wfmath/vector.h: sloppyMagMax"]}
{"id": "C20", "title": "normalize produces the requested length", "statement": "v.normalize(n) has length |n| and keeps the direction, for every nonzero v; sloppyNorm(n) has length between n/sloppyMagMax and n.", "quantifier": "all nonzero vectors and target norms", "why_tests_cant": "all reals", "anchors": ["src/wfmath/vector.h: normalize", "src/wfmath/vector_funcs.h: sloppyNorm"]}
{"id": "C21", "title": "Cross product in three dimensions", "statement": "Cross(a,b) is orthogonal to both arguments, antisymmetric and has squared length |a|^2|b|^2-(a.b)^2, each up to the documented component cut-off.", "quantifier": "all pairs of 3-vectors", "why_tests_cant": "identities over all reals", "anchors": ["src/wfmath/vector.cpp: Cross(Vector<3>,Vector<3>)"]}
{"id": "C22", "title": "Cross product in two dimensions is antisymmetric", "statement": "Cross(a,b) = -Cross(b,a) for 2-vectors, its sign tells the orientation of the pair.", "quantifier": "all pairs of 2-vectors", "why_tests_cant": "sign behaviour in all quadrants", "anchors": ["src/wfmath/vector.cpp: Cross(Vector<2>,Vector<2>)"]}
{"id": "C23", "title": "Angle is a symmetric value in [0, pi]", "statement": "Angle(a,b) lies in [0,pi], is symmetric, is 0 for equal directions and pi for opposite ones, and its cosine is the cosine of the geometric angle up to the Dot cut-off.", "quantifier": "all pairs of nonzero vectors", "why_tests_cant": "the clamp matters only at the extremes; all pairs", "anchors": ["src/wfmath/vector_funcs.h: Angle"]}
{"id": "C24", "title": "Rotating a vector in a coordinate plane", "statement": "rotate(i,j,theta) is length preserving, additive in theta, fixes all other components, undone by -theta, and equals multiplication by RotMatrix::rotation(i,j,theta). Vector<2>::rotate(theta) turns counterclockwise.", "quantifier": "all vectors, distinct axes and angles", "why_tests_cant": "all angles", "anchors": ["src/wfmath/vector_funcs.h: rotate", "src/wfmath/rotmatrix_funcs.h: rotation(int,int,CoordType)"]}
{"id": "C25", "title": "Rotating a 3-vector about an axis", "statement": "rotate(axis,theta) fixes vectors along the axis, preserves length, is additive in theta and agrees with rotation by the quaternion and by the matrix built from the same axis and angle (up to the inner product cut-off). rotateX, rotateY and rotateZ are the rotations about the coordinate axes.", "quantifier": "all 3-vectors, nonzero axes and angles", "why_tests_cant": "all reals", "anchors": ["src/wfmath/vector.cpp: rotate(Vector<3>,CoordType)", "src/wfmath/quaternion.cpp: rotation(Vector<3>,CoordType)", "src/wfmath/rotmatrix.cpp: rotation"]}
{"id": "C26", "title": "Mirroring is an involution and an isometry", "statement": "mirror(i), mirror() and mirror(v) applied twice give the original vector; they preserve length; mirror(v) negates v and fixes the orthogonal complement.", "quantifier": "all vectors and nonzero mirror vectors", "why_tests_cant": "all reals", "anchors": ["src/wfmath/vector.h: mirror"]}
{"id": "C27", "title": "Polar and spherical coordinates round trip", "statement": "polar(r,theta) built from asPolar(v) restores v, and spherical(...) from asSpherical(v) restores v. The same holds for points as for vectors.", "quantifier": "all vectors / points", "why_tests_cant": "all directions", "anchors": ["src/wfmath/basis.h: _CartToPolar, _PolarToCart, _CartToSpherical, _SphericalToCart"]}
{"id": "C28", "title": "Tolerant vector and point equality", "statement": "isEqualTo is false if either operand is invalid, reflexive on valid values, symmetric, and true exactly when every component differs by at most the scaled epsilon.", "quantifier": "all pairs", "why_tests_cant": "all pairs", "anchors": ["src/wfmath/vector_funcs.h: isEqualTo", "src/wfmath/point_funcs.h: isEqualTo"]}
{"id": "C29", "title": "Point/vector arithmetic is an affine space", "statement": "(p+v)-p = v, p+(q-p)=q, (p+u)+v=p+(u+v), p-v=p+(-v); validity is conjunction. Vector(p) and Point(v) are the coordinates relative to the origin and undo each other.", "quantifier": "all points and vectors in every dimension", "why_tests_cant": "affine laws over all reals", "anchors": ["src/wfmath/point_funcs.h: operator-, operator+=, operator-="]}
{"id": "C30", "title": "Midpoint and barycenter lie where they should", "statement": "Midpoint(p,q,d) is p+(q-p)*d; the barycenter of a nonempty list is the mean, is inside the bounding box of the list, is unaffected by reordering, and translates with the points; empty input gives an invalid point; the weighted version with proportional weights gives the same point.", "quantifier": "all finite lists of points, all weights", "why_tests_cant": "lists of every length and order", "anchors": ["src/wfmath/point_funcs.h: Barycenter, Midpoint"]}
{"id": "C31", "title": "Point coordinate changes invert each other", "statement": "toLocalCoords(o,R) after toParentCoords(o,R) is the identity and conversely, for matrices and for quaternions, and distances are preserved (exactly when no inner or cross product is flushed to zero by the library's cut-off, and in general with an error bounded by a small multiple of epsilon).", "quantifier": "all points, origins and rotations", "why_tests_cant": "all rotations", "anchors": ["src/wfmath/point.h: toParentCoords, toLocalCoords", "src/wfmath/point.cpp"]}
{"id": "C32", "title": "SquaredDistance is a squared metric up to its cut-off", "statement": "SquaredDistance(p,q) is symmetric, nonnegative, zero for equal points and otherwise exact unless below the scaled epsilon.", "quantifier": "all pairs of points", "why_tests_cant": "all pairs", "anchors": ["src/wfmath/point_funcs.h: SquaredDistance"]}
{"id": "C33", "title": "Unit quaternions stay unit quaternions", "statement": "Every quaternion obtained from the public constructors by any sequence of *, /, inverse, rotate and normalize has norm exactly 1 in exact arithmetic.", "quantifier": "every history of quaternion operations", "why_tests_cant": "unbounded histories; normalisation is triggered by an age counter", "anchors": ["src/wfmath/quaternion.cpp: operator*=, operator/=, inverse, normalize", "src/wfmath/quaternion.h: checkNormalization"]}
{"id": "C34", "title": "Quaternion multiplication composes rotations in order", "statement": "v.rotate(q1*q2) = v.rotate(q1).rotate(q2), v.rotate(q1/q2) = v.rotate(q1).rotate(q2.inverse()), identity rotates nothing, and multiplication is associative (exactly when no inner or cross product is flushed to zero by the library's cut-off, and in general with an error bounded by a small multiple of epsilon).", "quantifier": "all unit quaternions and vectors", "why_tests_cant": "identities over all reals; the order convention is easily reversed", "anchors": ["src/wfmath/quaternion.cpp: operator*=, operator/=", "src/wfmath/vector.cpp: rotate(Quaternion)"]}
{"id": "C35", "title": "Rotating by a quaternion is an orientation preserving isometry", "statement": "v.rotate(q) preserves inner products and cross products, and v.rotate(q).rotate(q.inverse()) = v (exactly when no inner or cross product is flushed to zero by the library's cut-off, and in general with an error bounded by a small multiple of epsilon).", "quantifier": "all unit quaternions and vectors", "why_tests_cant": "all reals", "anchors": ["src/wfmath/vector.cpp: rotate(Quaternion)"]}
{"id": "C36", "title": "Quaternion to matrix and back", "statement": "RotMatrix<3>(q) represents the same rotation as q (ProdInv(v, m) = v.rotate(q)), and fromRotMatrix(RotMatrix(q)) gives q or -q for every unit quaternion.", "quantifier": "all unit quaternions", "why_tests_cant": "the conversion branches on the sign of the trace and on the largest diagonal element; tests hit one branch", "anchors": ["src/wfmath/quaternion.cpp: fromRotMatrix", "src/wfmath/rotmatrix.cpp: fromQuaternion"]}
{"id": "C37", "title": "Quaternion equality identifies q and -q", "statement": "isEqualTo accepts a quaternion and its negation, is reflexive and symmetric on valid quaternions, and false on invalid ones.", "quantifier": "all quaternions", "why_tests_cant": "all pairs", "anchors": ["src/wfmath/quaternion.cpp: isEqualTo"]}
{"id": "C38", "title": "The quaternion taking one direction to another", "statement": "Quaternion::rotation(from,to) rotates from onto the direction of to, and reports colinear vectors only when they are opposite up to tolerance (exactly when no inner or cross product is flushed to zero by the library's cut-off, and in general with an error bounded by a small multiple of epsilon).", "quantifier": "all pairs of nonzero vectors", "why_tests_cant": "all pairs, boundary at antiparallel", "anchors": ["src/wfmath/quaternion.cpp: rotation(Vector<3>,Vector<3>)"]}
{"id": "C39", "title": "Renormalising a drifting quaternion moves it towards unit norm", "statement": "normalize() keeps the direction and brings the norm closer to 1; repeated normalisation converges to norm 1.", "quantifier": "every nonzero quaternion", "why_tests_cant": "a convergence statement over all norms", "anchors": ["src/wfmath/quaternion.cpp: normalize"]}
{"id": "C40", "title": "Rotation matrices stay orthogonal with correct parity", "statement": "Every matrix reached from the public constructors by products, inverses, mirrors and rotations is orthogonal, its determinant is +1 or -1, and parity() reports the sign of the determinant.", "quantifier": "every history of matrix operations in every dimension", "why_tests_cant": "unbounded histories; normalisation triggered by an age counter", "anchors": ["src/wfmath/rotmatrix_funcs.h: Prod, ProdInv, InvProd, InvProdInv, inverse, identity, rotation, mirror, normalize"]}
{"id": "C41", "title": "Matrix product conventions", "statement": "v.rotate(m1).rotate(m2) = v.rotate(m1*m2); Prod/ProdInv/InvProd/InvProdInv equal products with inverses; inverse() undoes a rotation on both sides.", "quantifier": "all rotation matrices and vectors in every dimension", "why_tests_cant": "all reals, all dimensions", "anchors": ["src/wfmath/rotmatrix_funcs.h"]}
{"id": "C42", "title": "rotation(i,j,theta) and rotation(v1,v2,theta)", "statement": "Both are orthogonal, additive in theta, and act as a rotation by theta in the given plane and trivially on its complement. Vector::rotate(v1, v2, theta) turns the part of the vector in the plane of v1 and v2 by theta and leaves the rest.", "quantifier": "all planes and angles in every dimension", "why_tests_cant": "all angles", "anchors": ["src/wfmath/rotmatrix_funcs.h: rotation"]}
{"id": "C43", "title": "The matrix taking one direction to another", "statement": "RotMatrix::rotation(from,to) is orthogonal and rotates from onto the direction of to.", "quantifier": "all pairs of non-opposite nonzero vectors in every dimension", "why_tests_cant": "all pairs, all dimensions", "anchors": ["src/wfmath/rotmatrix_funcs.h: rotation(Vector,Vector)"]}
{"id": "C44", "title": "Mirror matrices", "statement": "mirror(i), mirror(v) and mirror() are symmetric orthogonal involutions whose parity equals the sign of their determinant, and mirror(v) reflects in the hyperplane orthogonal to v.", "quantifier": "all dimensions, axes and nonzero vectors", "why_tests_cant": "parity depends on the dimension", "anchors": ["src/wfmath/rotmatrix_funcs.h: mirror", "src/wfmath/rotmatrix.h: mirror"]}
{"id": "C45", "title": "normalize leaves rotation matrices alone and repairs drifting ones", "statement": "normalize() maps an orthogonal matrix to itself, and on an invertible matrix moves it towards orthogonality.", "quantifier": "all orthogonal / invertible matrices", "why_tests_cant": "all reals", "anchors": ["src/wfmath/rotmatrix_funcs.h: normalize", "src/wfmath/rotmatrix.cpp: _MatrixInverseImpl"]}
{"id": "C46", "title": "setVals accepts exactly near-orthogonal input", "statement": "setVals on an orthogonal array succeeds, stores those values, marks the matrix valid and reports the parity of its determinant; it refuses when the orthogonality error exceeds the precision; on refusal the matrix is unchanged. Whatever array it accepts, also one that is only nearly orthogonal, the parity it reports is the sign of that array's determinant.", "quantifier": "all arrays and precisions; the parity in two and three dimensions, for which the library is built, with the limits of double", "why_tests_cant": "all reals", "anchors": ["src/wfmath/rotmatrix.cpp: _MatrixSetValsImpl, _MatrixDeterminantImpl", "src/wfmath/rotmatrix_funcs.h: _setVals"]}
{"id": "C47", "title": "The Gaussian elimination helpers are correct", "statement": "The determinant helper returns the determinant and the inversion helper returns the inverse of every invertible matrix and reports failure on singular ones.", "quantifier": "all square matrices of every size", "why_tests_cant": "pivoting paths depend on the data", "anchors": ["src/wfmath/rotmatrix.cpp: _MatrixDeterminantImpl, _MatrixInverseImpl"]}
{"id": "C48", "title": "fromQuaternion records the parity it produces", "statement": "fromQuaternion(q, not_flip) yields an orthogonal matrix whose parity() equals the sign of its determinant, for both values of not_flip.", "quantifier": "all unit quaternions, both flags", "why_tests_cant": "all reals", "anchors": ["src/wfmath/rotmatrix.cpp: fromQuaternion"]}
{"id": "C49", "title": "Box construction orders its corners", "statement": "AxisBox(p1,p2) contains p1 and p2, has low <= high on every axis and is the smallest such box; validity follows the validity of the inputs.", "quantifier": "all pairs of points in every dimension", "why_tests_cant": "all orderings per axis", "anchors": ["src/wfmath/axisbox_funcs.h: setCorners"]}
{"id": "C50", "title": "Intersection of boxes is set intersection", "statement": "Intersection(b1,b2,out) returns false exactly when the boxes are disjoint; when true, a point is in out exactly when it is in both.", "quantifier": "all pairs of ordered boxes in every dimension, all points", "why_tests_cant": "all pairs and all points", "anchors": ["src/wfmath/axisbox_funcs.h: Intersection"]}
{"id": "C51", "title": "Union of boxes is the least enclosing box", "statement": "Union(b1,b2) contains both and is contained in every box containing both; it is commutative, associative and idempotent.", "quantifier": "all pairs of ordered boxes", "why_tests_cant": "quantifies over all enclosing boxes", "anchors": ["src/wfmath/axisbox_funcs.h: Union"]}
{"id": "C52", "title": "BoundingBox is the least enclosing box of a container", "statement": "BoundingBox of a nonempty list of points or boxes contains every element, is contained in any box that does, is independent of order, and is valid exactly when all elements are; the empty list gives an invalid box. The same holds for boundingBox() of points, segments, lines and polygons, except that the box of an invalid segment is valid.", "quantifier": "lists of every length and order", "why_tests_cant": "unbounded lists", "anchors": ["src/wfmath/axisbox_funcs.h: BoundingBox"]}
{"id": "C53", "title": "Box corners", "statement": "getCorner(i) for 0 <= i < 2^dim enumerates exactly the vertices of the box, each of which lies in the box; corner i and corner 2^dim-1-i are opposite.", "quantifier": "every dimension and corner index", "why_tests_cant": "2^dim corners for every dim", "anchors": ["src/wfmath/axisbox_funcs.h: getCorner", "src/wfmath/axisbox.h: numCorners"]}
{"id": "C54", "title": "Box intersection and containment predicates match the point sets", "statement": "Intersect(b1,b2) and Contains(b1,b2), Intersect(b,p) decide overlap, inclusion and membership of the closed (or, with proper, open) boxes; Intersect is symmetric, containment is transitive and implies intersection The tolerant (non-proper) tests allow an absolute error of epsilon per coordinate; the proper ones are exact.", "quantifier": "all boxes and points in every dimension, proper and not", "why_tests_cant": "all pairs and all points", "anchors": ["src/wfmath/intersect.h: Intersect, Contains (AxisBox)", "src/wfmath/intersect_decls.h: _Less, _Greater"]}
{"id": "C55", "title": "Ball predicates match the point sets", "statement": "Intersect and Contains between balls, points and boxes decide overlap and inclusion of the corresponding closed or open sets The tests are exact up to the relative tolerance epsilon of the distance comparison and the flushing to zero of distances below the rounding tolerance.", "quantifier": "all balls, boxes and points in every dimension", "why_tests_cant": "all pairs and all points", "anchors": ["src/wfmath/intersect.h: Intersect, Contains (Ball)"]}
{"id": "C56", "title": "Bounding spheres of boxes, segments and rotated boxes enclose the shape", "statement": "boundingSphere() and boundingSphereSloppy() of AxisBox, Segment and RotBox contain every corner, hence the shape, and the sloppy one contains the exact one. boundingSphere() of a point is the point.", "quantifier": "all shapes in every dimension", "why_tests_cant": "all reals", "anchors": ["src/wfmath/axisbox_funcs.h: boundingSphere", "src/wfmath/segment.h: boundingSphere", "src/wfmath/rotbox.h: boundingSphere, boundingSphereSloppy"]}
{"id": "C57", "title": "BoundingSphereSloppy encloses all points", "statement": "The ball returned by BoundingSphereSloppy of a nonempty list contains every point of the list. The same holds for boundingSphereSloppy() of a polygon in space, up to a relative error of epsilon when the axes of its plane are only perpendicular up to rounding.", "quantifier": "lists of every length and order", "why_tests_cant": "an invariant of an incremental algorithm over unbounded lists", "anchors": ["src/wfmath/ball_funcs.h: BoundingSphereSloppy"]}
{"id": "C58", "title": "BoundingSphere is the smallest enclosing ball", "statement": "The ball returned by BoundingSphere of a nonempty list contains every point of the list and no smaller ball does. The list must hold at least two different points when assertions are compiled in, and no point may be nearly, but not exactly, in a flat through others (relative distance below 10^-16), because the code then leaves it out of the basis. The same holds for boundingSphere() of a polygon in space with exactly perpendicular axes.", "quantifier": "lists of every length and order", "why_tests_cant": "minimality quantifies over all balls", "anchors": ["src/wfmath/ball_funcs.h: BoundingSphere", "src/wfmath/miniball_funcs.h"]}
{"id": "C59", "title": "Segment/box intersection is exact", "statement": "Intersect(segment, box) is true exactly when some point of the segment lies in the box (open box interior overlap when proper) The tolerant test allows an absolute error of epsilon on axes along which the segment is constant; the proper test is exact.", "quantifier": "all segments and ordered boxes in every dimension", "why_tests_cant": "all pairs; clipping depends on signs per axis", "anchors": ["src/wfmath/intersect.h: Intersect(Segment, AxisBox)"]}
{"id": "C60", "title": "Segment/ball intersection is exact", "statement": "Intersect(segment, ball) is true exactly when some point of the segment lies in the ball, up to the documented relative tolerance.", "quantifier": "all segments and balls in every dimension", "why_tests_cant": "all pairs", "anchors": ["src/wfmath/intersect.h: Intersect(Segment, Ball)"]}
{"id": "C61", "title": "Segment/point incidence", "statement": "Intersect(segment, point) accepts every point of the segment and rejects points off the segment beyond tolerance.", "quantifier": "all segments and points", "why_tests_cant": "all pairs", "anchors": ["src/wfmath/intersect.h: Intersect(Segment, Point)"]}
{"id": "C62", "title": "Segment/segment intersection is exact", "statement": "Intersect(s1,s2) is true exactly when the segments have a common point, and is symmetric.", "quantifier": "all pairs of segments", "why_tests_cant": "all pairs", "anchors": ["src/wfmath/intersect.h: Intersect(Segment, Segment)"]}
{"id": "C63", "title": "A convex shape contains a segment when it contains its ends", "statement": "Contains(box, segment) and Contains(ball, segment) hold exactly when every point of the segment is contained.", "quantifier": "all boxes, balls and segments", "why_tests_cant": "quantifies over all points of the segment", "anchors": ["src/wfmath/intersect.h: Contains(AxisBox, Segment), Contains(Ball, Segment)"]}
{"id": "C64", "title": "Rotated box membership and corners", "statement": "Intersect(rotbox, p) is true exactly when p = corner0 + rotated combination of the edges with coordinates inside the size; all corners are members; the centre is a member. The proper test is exact, the tolerant one allows an error of epsilon along each of the box's directions.", "quantifier": "all rotated boxes (sizes of any sign) and points in every dimension", "why_tests_cant": "all reals", "anchors": ["src/wfmath/intersect.h: Intersect(RotBox, Point)", "src/wfmath/rotbox_funcs.h: getCorner"]}
{"id": "C65", "title": "The bounding box of a rotated box is tight", "statement": "boundingBox() of a rotated box contains every corner and is the least such box.", "quantifier": "all rotated boxes in every dimension", "why_tests_cant": "sign cases per axis", "anchors": ["src/wfmath/rotbox_funcs.h: boundingBox"]}
{"id": "C66", "title": "Rotated box against box: separating axis test", "statement": "Intersect(rotbox, axisbox) is true exactly when the two solids share a point (2D and 3D). The same holds for two rotated boxes. In space the claim needs that no two edges are nearly, but not exactly, parallel: for those the test gives up and reports an intersection.", "quantifier": "all pairs", "why_tests_cant": "completeness of the separating axis test is a theorem about all pairs", "anchors": ["src/wfmath/intersect.cpp: Intersect<2>, Intersect<3>"]}
{"id": "C67", "title": "Rotated box containment predicates", "statement": "Contains(box, rotbox), Contains(rotbox, box), Contains(rotbox, rotbox) decide inclusion of the solids. The proper tests are exact, the tolerant ones allow an error of epsilon along each direction of the outer box.", "quantifier": "all pairs", "why_tests_cant": "all points of the inner solid", "anchors": ["src/wfmath/intersect.h: Contains (RotBox)"]}
{"id": "C68", "title": "Coordinate changes of shapes invert each other", "statement": "toLocalCoords after toParentCoords with the same origin and rotation returns the original shape (segments, balls, rotated boxes, lines, polygons), for matrices and quaternions. Each corner of the converted shape is the converted corner. For polygons and quaternions the two conversions undo each other up to the cut-off although the corners are not converted as points are.", "quantifier": "all shapes, origins, rotations", "why_tests_cant": "all rotations", "anchors": ["src/wfmath/segment.h", "src/wfmath/ball.h", "src/wfmath/rotbox.h: toLocalCoords, toParentCoords", "src/wfmath/rotbox.cpp", "src/wfmath/line.h", "src/wfmath/polygon.h"]}
{"id": "C69", "title": "Moving a shape puts the named corner or centre where asked", "statement": "moveCornerTo(p,i) makes corner i equal p and moves all others by the same vector; moveCenterTo(p) makes the centre p; shift by v then -v restores the shape.", "quantifier": "all shapes, corners, targets", "why_tests_cant": "all reals, every corner count", "anchors": ["src/wfmath/axisbox.h, segment_funcs.h, rotbox.h, line_funcs.h, polygon.h, ball.h: moveCornerTo, moveCenterTo, shift"]}
{"id": "C70", "title": "Rotating a shape fixes the named corner or centre", "statement": "rotateCorner(m,i) leaves corner i in place, rotateCenter leaves the centre in place, and distances between corners are preserved; for matrices and for quaternions. Balls rotated by a quaternion follow the same rule as segments.", "quantifier": "all shapes, corners, rotations", "why_tests_cant": "all rotations", "anchors": ["src/wfmath/segment_funcs.h, rotbox.h, line_funcs.h, polygon_funcs.h: rotateCorner, rotateCenter, rotatePoint"]}
{"id": "C71", "title": "Lines and 2D polygons behave as point lists", "statement": "addCorner(i,p) inserts before index i, removeCorner(i) deletes it, moveCorner(i,p) replaces it, and after any sequence of edits getCorner/numCorners agree with the abstract list.", "quantifier": "every sequence of edits with in-range indices", "why_tests_cant": "unbounded edit histories", "anchors": ["src/wfmath/line.h", "src/wfmath/line_funcs.h", "src/wfmath/polygon.h: Polygon<2>"]}
{"id": "C72", "title": "3D polygons remember their corners", "statement": "After any sequence of successful addCorner calls getCorner(i) returns the points that were added, in order (exactly when they are coplanar, within tolerance otherwise); a failed addCorner leaves the polygon unchanged; the plane basis stays orthonormal.", "quantifier": "every sequence of addCorner calls", "why_tests_cant": "unbounded histories over an incremental basis", "anchors": ["src/wfmath/polygon_funcs.h: expand, convert", "src/wfmath/polygon.h: addCorner"]}
{"id": "C73", "title": "Removing or moving a corner of a 3D polygon leaves the others in place", "statement": "removeCorner and moveCorner do not change the position of any other corner.", "quantifier": "every polygon and index", "why_tests_cant": "the basis reduction has five cases", "anchors": ["src/wfmath/polygon_funcs.h: reduce", "src/wfmath/polygon.cpp: reorient"]}
{"id": "C74", "title": "Point in polygon follows the even-odd rule", "statement": "For points not within tolerance of an edge, Intersect(polygon, p) is true exactly when a ray from p crosses the boundary an odd number of times; it is invariant under cyclic renumbering and reversal of the corners. The parity does not depend on the direction of the ray, changes by one for every side crossed on the way from one point to another, is constant on every connected region free of boundary points, and is even outside the convex hull. The answer of the even-odd rule moves with the polygon: an invertible affine map of polygon and point together does not change it.", "quantifier": "all polygons with any number of corners and all points", "why_tests_cant": "every polygon size and degenerate vertex heights", "anchors": ["src/wfmath/polygon_intersect.cpp: Intersect(Polygon<2>, Point<2>)"]}
{"id": "C75", "title": "A convex shape contains a polygon when it contains its corners", "statement": "Contains(box, polygon), Contains(ball, polygon), Contains(rotbox, polygon) hold exactly when every corner, hence the hull, is contained. Non-proper containment is up to the tolerance: the hull must lie in the box, ball or rotated box enlarged by epsilon (for boxes: every coordinate within epsilon; for balls: of the squared distance).", "quantifier": "all polygons", "why_tests_cant": "quantifies over all points of the hull", "anchors": ["src/wfmath/polygon_intersect.cpp: Contains"]}
{"id": "C76", "title": "Vectors and points survive printing and parsing", "statement": "Parsing the printed form of a vector or point reads exactly the printed numbers, consumes exactly the printed text and marks the value valid; malformed text raises ParseError.", "quantifier": "all dimensions and all number texts", "why_tests_cant": "all strings", "anchors": ["src/wfmath/stream.cpp: WriteCoordList, ReadCoordList", "src/wfmath/stream.h"]}
{"id": "C77", "title": "Shapes survive printing and parsing", "statement": "Parsing the printed form of an AxisBox, Ball, Segment, RotBox, Polygon<2> or Polygon<3> restores its defining numbers. Quaternions and rotation matrices are included; so are ToString and FromString.", "quantifier": "all shapes, all corner counts", "why_tests_cant": "every corner count", "anchors": ["src/wfmath/stream.h", "src/wfmath/stream.cpp"]}
{"id": "C78", "title": "Atlas conversion round trips", "statement": "fromAtlas(toAtlas(x)) restores a valid finite x for Vector, Point, Quaternion, AxisBox, Ball, Line, Polygon<2> and RotBox.  The object made from a value is valid exactly when the parts the value is made of are.", "quantifier": "all finite values", "why_tests_cant": "all values, all corner counts", "anchors": ["src/wfmath/atlasconv.h"]}
{"id": "C79", "title": "Atlas input is checked", "statement": "fromAtlas throws on a list of the wrong length or a non-list and never yields a valid object with a non finite coordinate. A ball, however, accepts any message silently, and an exception may leave a valid object with some of its coordinates overwritten.  A coordinate may be given as an integer of either sign or as a floating point number; the object read is valid exactly when every number is finite.", "quantifier": "every Atlas message", "why_tests_cant": "all message trees", "anchors": ["src/wfmath/atlasconv.h"]}
{"id": "C80", "title": "Factorial is exact where computed exactly, Gaussian and Poisson are probability densities", "statement": "Factorial(n) = n! for n < 10, LogFactorial(n) = log(n!), Gaussian is positive, symmetric about the mean and integrates to 1, Poisson(mean,.) is positive and agrees with mean^k e^-mean / k! for k < 10. For larger arguments LogFactorial is within 1.5e-10 and Factorial and Poisson within that relative error, and none of their assertions fails.", "quantifier": "all n < 10; all means, deviations and values", "why_tests_cant": "integrals and all reals", "anchors": ["src/wfmath/probability.cpp: Factorial, LogFactorial, Gaussian, Poisson"]}
{"id": "C81", "title": "The Stirling coefficients are the Bernoulli coefficients", "statement": "The i-th correction coefficient used by LogGamma is B(2i+2)/((2i+1)(2i+2)).", "quantifier": "every entry of the table", "why_tests_cant": "a wrong digit changes results below test tolerance", "anchors": ["src/wfmath/probability.cpp: LogGamma coeffs"]}
{"id": "C82", "title": "The incomplete gamma power series loop terminates with a partial sum", "statement": "The power series loop stops for every admissible argument and its result is a partial sum of the series whose last term is below epsilon relative to the sum. What the loop leaves out is at most the machine epsilon times z of the result.", "quantifier": "all a>0, 0<z<=a+1", "why_tests_cant": "termination for all arguments", "anchors": ["src/wfmath/probability.cpp: IncompleteGammaNoPrefactor"]}
{"id": "C83", "title": "In-place quaternion operations may use the same object", "statement": "q *= q leaves q holding the value of q*q, and q /= q leaves the identity.", "quantifier": "all quaternions", "why_tests_cant": "aliasing of the operand with the target matters for every value, and for special values (identity, half turns) the wrong result coincides with the right one", "anchors": ["src/wfmath/quaternion.cpp: operator*=, operator/="]}
{"id": "C84", "title": "A quaternion and the matrix built from it rotate vectors alike", "statement": "v.rotate(q) = v.rotate(RotMatrix<3>(q)).", "quantifier": "all unit quaternions and vectors", "why_tests_cant": "must hold for every rotation and vector; symmetric rotations satisfy it by accident", "anchors": ["src/wfmath/rotmatrix.cpp: fromQuaternion", "src/wfmath/vector.cpp: rotate(Quaternion)", "src/wfmath/vector.h: rotate(RotMatrix)"]}
{"id": "C85", "title": "Conversions and products of rotations propagate invalidity", "statement": "The result of a conversion between quaternions and matrices, of a product and of rotating a vector is invalid whenever an operand is. Matrices and quaternions that were never set are invalid.", "quantifier": "all values with any validity flags", "why_tests_cant": "quantifies over every combination of operation and operand", "anchors": ["src/wfmath/rotmatrix.cpp: fromQuaternion", "src/wfmath/quaternion.cpp: fromRotMatrix, operator*=, operator/="]}
{"id": "C86", "title": "Rotating a matrix by a quaternion composes the rotations", "statement": "v.rotate(m.rotate(q)) = v.rotate(m).rotate(q).", "quantifier": "all rotation matrices, unit quaternions and vectors, up to the cut-off of inner and cross products", "why_tests_cant": "must hold for every rotation and vector", "anchors": ["src/wfmath/rotmatrix.cpp: RotMatrix<3>::rotate(Quaternion)"]}
{"id": "C87", "title": "The bounding box of a ball is tight", "statement": "boundingBox() of a ball contains every point of the ball and is the least such axis box.", "quantifier": "all balls of non-negative radius in every dimension", "why_tests_cant": "quantifies over all points of the ball", "anchors": ["src/wfmath/ball_funcs.h: boundingBox"]}
{"id": "C88", "title": "A segment contains a shape only when it covers it", "statement": "Contains(segment, segment), Contains(segment, box) and Contains(segment, ball) are true whenever every point of the inner shape lies on the segment, and when the proper test is true every point of the inner shape lies within the relative tolerance of the segment.", "quantifier": "all segments, boxes and balls in every dimension", "why_tests_cant": "quantifies over all points of the inner shape; degenerate boxes with one long side are a special branch", "anchors": ["src/wfmath/intersect.h: Contains(Segment, Segment), Contains(Segment, AxisBox), Contains(Segment, Ball)"]}
{"id": "C89", "title": "Rotated boxes against balls and segments", "statement": "Intersect and Contains between a rotated box and a ball or a segment (either way round) decide whether the solids meet or one includes the other, with the tolerance of the corresponding axis box test measured along the rotated box's own directions.", "quantifier": "all rotated boxes whose orientation is a rotation, all balls of non-negative radius, all segments", "why_tests_cant": "all points of all solids", "anchors": ["src/wfmath/intersect.h: Intersect(RotBox, Ball), Contains(RotBox, Ball), Contains(Ball, RotBox), Intersect(RotBox, Segment), Contains(RotBox, Segment), Contains(Segment, RotBox)"]}
{"id": "C90", "title": "A polygon in space stays readable through every history of edits", "statement": "After any history of addCorner, removeCorner, moveCorner, shifts, rotations by matrices and coordinate changes, numCorners() is the number the edits say, getCorner(i) returns for every i < numCorners() and getCenter() returns for a nonempty polygon (no assertion fails); the plane basis stays unit and perpendicular; without assertions the edits themselves return exactly when the index is in range.", "quantifier": "every history of operations, every dimension", "why_tests_cant": "unbounded histories over an incrementally grown and reduced basis", "anchors": ["src/wfmath/polygon_funcs.h: expand, reduce, convert", "src/wfmath/polygon.h: Polygon<dim>"]}
{"id": "C91", "title": "Reading ends for every text", "statement": "operator>> into a vector, point, box, ball, segment, rotated box, quaternion or polygon returns or throws ParseError for every input text; it never loops for ever.", "quantifier": "every text, every state of the stream", "why_tests_cant": "termination for all strings", "anchors": ["src/wfmath/stream.h: operator>>", "src/wfmath/stream.cpp: operator>>, ReadCoordList"]}
{"id": "C92", "title": "Parallel and Perpendicular tests bound the angle", "statement": "Parallel(a,b,same_dir) holds for exact multiples and sets same_dir to the sign of the factor; when it holds the squared sine of the angle is at most 2 epsilon. Perpendicular(a,b) holds for inner product 0, and when it holds the cosine of the angle is below 4 epsilon. Both are symmetric and independent of the lengths of the vectors.", "quantifier": "all pairs of nonzero vectors, all dimensions", "why_tests_cant": "the tolerance depends on binary exponents of the operands; failures occur only in ranges of lengths a test would have to guess", "anchors": ["src/wfmath/vector.h: Parallel", "src/wfmath/vector_funcs.h: Perpendicular"]}
{"id": "C93", "title": "Points on the boundary of a plane polygon", "statement": "For a point on a side of the polygon, Intersect(polygon, p, proper) is true exactly when proper is false.", "quantifier": "all polygons, all points on their sides", "why_tests_cant": "quantifies over all polygons and boundary points", "anchors": ["src/wfmath/polygon_intersect.cpp: Intersect<2>(const Polygon<2>&, const Point<2>&, bool)"]}
{"id": "C94", "title": "LogGamma and Gamma are the Gamma function", "statement": "For every argument that is not a pole, LogGamma(z) returns log|Gamma(z)| within 1.5e-10 and Gamma(z) returns the Gamma function, sign included, within that relative error.", "quantifier": "all real arguments except zero and the negative integers", "why_tests_cant": "the number of correction terms used and the assertion depend on the argument; it fails on a narrow interval", "anchors": ["src/wfmath/probability.cpp: LogGamma, Gamma"]}
{"id": "C95", "title": "The conditional distributions are hazard rates", "statement": "GaussianConditional(mean, stddev, val) is the density at val divided by the probability of a value above val; PoissonConditional(mean, step) is the probability of exactly step events divided by that of at least step events.", "quantifier": "all means, deviations, values and steps", "why_tests_cant": "ranges over all reals; the existing test's tolerance hides a 25 percent error", "anchors": ["src/wfmath/probability.cpp: GaussianConditional, PoissonConditional, IncompleteGamma, IncompleteGammaNoPrefactor, IncompleteGammaComplementNoPrefactor"]}
{"id": "C96", "title": "Comparison of rotation matrices", "statement": "isEqualTo(m) is symmetric, true of a valid matrix and itself, false when either is invalid, and on rotation matrices is decided by the entries alone: its assertion on the parities never fails for a tolerance below 2 / dim.", "quantifier": "all matrices of every dimension, all tolerances", "why_tests_cant": "that no two rotation matrices of opposite parity have nearby entries is a statement about all of them", "anchors": ["src/wfmath/rotmatrix_funcs.h: RotMatrix::isEqualTo"]}
{"id": "C97", "title": "Plane polygon against a ball", "statement": "For a plane polygon with at least one corner, Intersect(polygon, ball) is true when a point of the polygon (inside by the even-odd rule, or on a side) is in the ball, up to the stated cut-offs, and false when every point of the polygon is farther from the centre than the widened radius; Contains(polygon, ball) is true exactly when the whole ball is in the polygon, under the same provisos. Only the polygon without corners has no answer.", "quantifier": "all plane polygons (any number of corners, self-crossing or not), all balls, both values of proper", "why_tests_cant": "the claim joins a parity count over sides with distances to sides, for every polygon and ball; a sample of polygons exercises neither self-crossing shapes nor balls that touch a side", "anchors": ["src/wfmath/polygon_intersect.cpp: Intersect<2>(Polygon,Ball), Contains<2>(Polygon,Ball)"]}
{"id": "C98", "title": "Plane polygon against a box", "statement": "Intersect(polygon, box), for an axis-aligned and for a rotated box, is true exactly when the polygon and the box have a point in common.", "quantifier": "all plane polygons, all boxes, all rotated boxes, both values of proper", "why_tests_cant": "the loop decides from where the lines of the sides cross the sides of the box and a parity; its answer must be right for every arrangement, including a polygon that lies wholly inside the box", "anchors": ["src/wfmath/polygon_intersect.cpp: Intersect<2>(Polygon,AxisBox), Intersect<2>(Polygon,RotBox)"]}
{"id": "C99", "title": "Plane polygon that contains a box", "statement": "Contains(polygon, box), for an axis-aligned and for a rotated box, is true exactly when every point of the box is in the polygon.", "quantifier": "all plane polygons, all boxes, all rotated boxes, both values of proper", "why_tests_cant": "containment of a whole region has to be concluded from finitely many sides, for every polygon", "anchors": ["src/wfmath/polygon_intersect.cpp: Contains<2>(Polygon,AxisBox), Contains<2>(Polygon,RotBox)"]}
{"id": "C100", "title": "Plane polygon against a segment", "statement": "Intersect(polygon, segment) is true exactly when they have a common point, Contains(polygon, segment) exactly when every point of the segment is in the polygon, Contains(segment, polygon) exactly when every corner is on the segment, up to the tolerance.", "quantifier": "all plane polygons with at least one corner, all segments, both values of proper", "why_tests_cant": "must hold for every arrangement of sides and segment; unit tests look at a few squares", "anchors": ["src/wfmath/polygon_intersect.cpp: Intersect<2>(Polygon,Segment), Contains<2>(Polygon,Segment), Contains<2>(Segment,Polygon)"]}
{"id": "C101", "title": "Two plane polygons", "statement": "Intersect(polygon, polygon) is true exactly when the polygons have a common point, Contains(outer, inner) exactly when every point of the inner polygon is in the outer one.", "quantifier": "all pairs of plane polygons with at least one corner, both values of proper", "why_tests_cant": "must hold for every pair of polygons, convex or not", "anchors": ["src/wfmath/polygon_intersect.cpp: Intersect<2>(Polygon,Polygon), Contains<2>(Polygon,Polygon)"]}
{"id": "C102", "title": "What is in a point", "statement": "A point meets another point, and contains a segment or a plane polygon, exactly when all points of the latter are that point, up to the tolerance; nothing is properly in a point except the polygon without corners.", "quantifier": "all points, segments and plane polygons of any dimension and number of corners", "why_tests_cant": "ranges over all points and over polygons with any number of corners", "anchors": ["src/wfmath/intersect.h: Intersect(Point,Point), Contains(Point,Segment)", "src/wfmath/polygon_intersect.cpp: Contains<2>(Point,Polygon)"]}
{"id": "C103", "title": "Point and polygon in space", "statement": "Intersect(polygon, point) is true exactly for the points inside the polygon (in its plane, by the even-odd rule there), up to a tolerance relative to the distance of the point from the origin of space.", "quantifier": "all polygons in a space of any dimension that span a plane, all points, both values of proper", "why_tests_cant": "ranges over all planes in space, all polygons in them and all points", "anchors": ["src/wfmath/polygon_intersect.cpp: Intersect(Polygon<dim>,Point<dim>), Poly2Orient::checkContained"]}
{"id": "C104", "title": "Polygon in space within a point", "statement": "Contains(point, polygon) is true exactly when all corners of the polygon are that point, up to the tolerance.", "quantifier": "all points and polygons in a space of any dimension", "why_tests_cant": "ranges over all polygons with any number of corners", "anchors": ["src/wfmath/polygon_intersect.cpp: Contains(Point<dim>,Polygon<dim>)"]}
{"id": "C105", "title": "Ball and polygon in space", "statement": "Intersect(polygon, ball) is true when a point of the polygon is in the ball, and true only if one is in the ball with its radius enlarged by the factor sqrt(1+epsilon), up to the stated cut-offs; no ball of positive radius is in a polygon, and Contains says so.", "quantifier": "all polygons in a space of any dimension that span a plane, all balls, both values of proper", "why_tests_cant": "ranges over all planes, polygons and balls; the ball is cut to a disc in the plane", "anchors": ["src/wfmath/polygon_intersect.cpp: Intersect(Polygon<dim>,Ball<dim>), Contains(Polygon<dim>,Ball<dim>)"]}
{"id": "C106", "title": "Segment and polygon in space", "statement": "Intersect(polygon, segment) is true exactly when the segment has a point in the polygon; Contains(polygon, segment) exactly when all its points are in the polygon.", "quantifier": "all polygons in space that span a plane, all segments, both values of proper", "why_tests_cant": "ranges over all planes, polygons and segments: parallel to the plane, crossing it, ending in it", "anchors": ["src/wfmath/polygon_intersect.cpp: Intersect(Polygon<dim>,Segment<dim>), Contains(Polygon<dim>,Segment<dim>)"]}
{"id": "C107", "title": "Box and polygon in space", "statement": "Intersect(polygon, box) is true exactly when they have a common point, Contains(polygon, box) exactly when the box lies in the polygon, for axis-aligned and rotated boxes. A box that is flat in all directions but one is contained exactly when the segment between its corners is.", "quantifier": "all polygons in space that span a plane, all boxes, both values of proper", "why_tests_cant": "ranges over all planes and boxes: boxes that straddle the plane, touch it, or are flat", "anchors": ["src/wfmath/polygon_intersect.cpp: Intersect<3>(Polygon,AxisBox), Intersect<3>(Polygon,RotBox), Contains(Polygon<dim>,AxisBox<dim>), Contains(Polygon<dim>,RotBox<dim>), _PolyContainsBox, Poly2Orient<3>::checkIntersectPlane"]}
{"id": "C108", "title": "Polygons in parallel planes", "statement": "Two polygons in parallel planes meet only if the planes coincide, and then exactly when the polygons have a common point in that plane.", "quantifier": "all pairs of polygons in space whose planes are parallel, both values of proper", "why_tests_cant": "ranges over all positions of the two planes and polygons", "anchors": ["src/wfmath/polygon_intersect.cpp: Intersect(Polygon<dim>,Polygon<dim>), Intersect(Poly2Orient,Poly2Orient,Poly2OrientIntersectData)"]}
{"id": "C109", "title": "Tolerant equality of shapes", "statement": "isEqualTo of boxes, balls, segments, rotated boxes, lines and polygons is reflexive on valid shapes, symmetric (rotated boxes: not stated), true only between valid shapes, and means that the defining points are equal one by one within the tolerance; for boxes and segments every point of the one shape is then within the tolerance of a point of the other. Polygons in space are compared by their corners, however they are stored.", "quantifier": "all pairs of shapes in every dimension, all tolerances; for polygons in space all pairs of editing histories", "why_tests_cant": "ranges over all pairs of shapes and all numbers of corners", "anchors": ["src/wfmath/axisbox.h, ball.h, segment.h, rotbox.h: isEqualTo", "src/wfmath/line_funcs.h: isEqualTo", "src/wfmath/polygon.cpp, polygon_funcs.h: isEqualTo"]}
{"id": "C110", "title": "Polygons in crossing planes", "statement": "Two polygons whose planes cross, or whose corners lie on a line, are said to meet exactly when they have a common point; moving one of them changes the answer accordingly. A polygon without corners meets nothing. A polygon whose corners are all one point meets another polygon exactly when the point lies in it.", "quantifier": "all pairs of polygons in space whose planes are not parallel, or of which one or both have all corners on a line, both values of proper", "why_tests_cant": "ranges over all pairs of planes and polygons; the common line may meet any number of sides of either polygon", "anchors": ["src/wfmath/polygon_intersect.cpp: Intersect(Polygon<dim>,Polygon<dim>), Intersect(Poly2Orient,Poly2Orient,Poly2OrientIntersectData), PolyPolyIntersect, GetCrossings, LinePolyGetBounds"]}
{"id": "C111", "title": "A polygon in space contains another", "statement": "Contains(polygon, polygon) in space is true exactly when the second polygon is a part of the first one. A polygon whose corners are all one point is a part of a polygon exactly when the point lies in it.", "quantifier": "all pairs of polygons in space, both values of proper", "why_tests_cant": "ranges over all pairs of planes and polygons", "anchors": ["src/wfmath/polygon_intersect.cpp: Contains(Polygon<dim>,Polygon<dim>), PolyPolyContains"]}
{"id": "C112", "title": "A segment contains a polygon", "statement": "Contains(segment, polygon) in space is true when all corners of the polygon are points of the segment, and a polygon that the proper test accepts lies near the segment in all its points.", "quantifier": "all polygons in a space of any dimension made by adding corners one by one to an empty polygon, all segments each end of which is at the first corner or at least 2 epsilon away from it, both values of proper", "why_tests_cant": "ranges over all histories of adding corners and all segments; the test extends the plane of the polygon by the ends of the segment", "anchors": ["src/wfmath/polygon_intersect.cpp: Contains(Segment<dim>, Polygon<dim>)", "src/wfmath/polygon_funcs.h: Poly2Orient::expand"]}
{"id": "C113", "title": "Renormalisation bounds the drift of quaternions", "statement": "However many products and quotients are formed, the norm of a valid quaternion stays near 1, because its age makes the library renormalise it in time.", "quantifier": "every history of quaternion operations, of any length", "why_tests_cant": "unbounded histories; the error of a single operation is far below what a test would notice and must be bounded for any number of them", "anchors": ["src/wfmath/quaternion.cpp: operator*=, operator/=, normalize", "src/wfmath/quaternion.h: checkNormalization, age"]}
{"id": "C114", "title": "Tolerances outlive rounding in comparisons and box tests", "statement": "Computed in double precision, Equal, isEqualTo of vectors and points, and the overlap and containment tests of boxes accept everything exact arithmetic accepts and nothing that exact arithmetic would not accept with a tolerance larger by one part in 2^52; the proper box tests and Equal on numbers give exactly the answers of exact arithmetic.", "quantifier": "all doubles of unbounded exponent, every dimension, every rounding to nearest whatever it does with ties", "why_tests_cant": "the differences sit in the last bits of particular operands; no finite set of operands covers them", "anchors": ["src/wfmath/const.cpp: Equal", "src/wfmath/vector_funcs.h: isEqualTo", "src/wfmath/point_funcs.h: isEqualTo", "src/wfmath/intersect_decls.h: _Less, _Greater", "src/wfmath/intersect.h: Intersect, Contains"]}
{"id": "C115", "title": "Random numbers stay in range in floating point", "statement": "rand() computed in doubles lies in [0,1], grows strictly with the generator word and is within 2^-52 of the exact quotient; rand(m) lies in [0,m] and reaches m for the largest word; rand<float>() computed in floats lies in [0,1], is 0 only for word 0 and grows (not strictly) with the word.", "quantifier": "all 2^32 words, every double m >= 0, every rounding to nearest", "why_tests_cant": "the bound at the upper end depends on two roundings cancelling for particular words; a test would have to run all words and all m", "anchors": ["src/wfmath/MersenneTwister.h: rand"]}
{"id": "C116", "title": "Lengths, distances and unit vectors are accurate in floating point", "statement": "Computed in doubles, sqrMag, mag, normalize, SquaredDistance and Distance have a relative error of a few units in the last place in every dimension, except where the cut-off sets a distance to 0; the distance is symmetric; p + (q - p) is q up to the roundings, and exactly q for nearby coordinates. Taking the difference of two points away from one gives the other back, in doubles, up to two roundings, exactly for close points.", "quantifier": "all vectors and points of every dimension, every rounding to nearest", "why_tests_cant": "accumulated rounding depends on all components; the bound must hold for every vector and length", "anchors": ["src/wfmath/vector_funcs.h: sqrMag", "src/wfmath/vector.h: mag, normalize", "src/wfmath/point_funcs.h: SquaredDistance, operator-, operator+=", "src/wfmath/point.h: Distance"]}
{"id": "C117", "title": "Vector identities that hold to the last bit", "statement": "Computed in doubles: u+v = v+u, u-v = -(v-u), v-v = 0, v+0 = v, scaling by powers of two is exact and undone by division; Dot is symmetric, the cross product in space is antisymmetric, and the cross product of a vector with any multiple of itself that is exact is exactly 0.", "quantifier": "all vectors of doubles, every rounding to nearest that treats x and -x alike", "why_tests_cant": "equality to the last bit for all operands", "anchors": ["src/wfmath/vector_funcs.h: operator+=, operator-=, operator*=, operator/=, Dot", "src/wfmath/vector.cpp: Cross"]}
{"id": "C118", "title": "Inner and cross products in floating point", "statement": "Dot and Cross computed in doubles are the exact products up to a few units in the last place of the sum of absolute products, or 0 where the exact value is below that plus the cut-off; perpendicular vectors of ordinary size (components at most 2, up to three dimensions) give exactly 0.", "quantifier": "all vectors, every dimension for Dot, every rounding to nearest", "why_tests_cant": "cancellation is worst for particular operands that random tests do not hit", "anchors": ["src/wfmath/vector_funcs.h: Dot", "src/wfmath/vector.cpp: Cross"]}
{"id": "C119", "title": "Ball tests in floating point", "statement": "Computed in doubles, a ball is found to contain every point and every box that lies in it; whatever one of the ball tests accepts is true of the balls with their radii enlarged by the factor 1 + epsilon, and whatever is true of the balls with their radii reduced by that factor is accepted; a box found to contain a ball properly does contain it.", "quantifier": "all balls, boxes and points up to dimension 50, every rounding to nearest", "why_tests_cant": "roundings of all coordinates add up at the border; no finite set of cases bounds them", "anchors": ["src/wfmath/intersect.h: Intersect(Ball, ...), Contains(Ball, ...), Contains(AxisBox, Ball)"]}
{"id": "C120", "title": "Midpoints, centres and moved boxes in floating point", "statement": "Computed in doubles, the midpoint is the exact one rounded once, lies between the two points and does not depend on their order; the centre of a box lies in the box; a point at weight 0 or 1 is the end point and at other weights off by at most 3 units of 2^-52; moving boxes keeps corners in order, points in boxes and boxes in boxes.", "quantifier": "all points and boxes whose coordinates are doubles, every dimension, every rounding to nearest", "why_tests_cant": "inclusion at the border must survive rounding for every operand", "anchors": ["src/wfmath/point_funcs.h: Midpoint, operator+=", "src/wfmath/axisbox.h: getCenter, shift"]}
{"id": "C121", "title": "Bounding volumes in floating point", "statement": "Computed in doubles, the bounding box of a ball contains every point of it up to one rounding of each coordinate, and the bounding sphere of a box contains the box: of the true point sets it contains all with the radius enlarged by a few units in the last place of the coordinates, and the library's own test finds the box in it.", "quantifier": "all balls and boxes with double coordinates, every rounding to nearest", "why_tests_cant": "whether the rounded centre and radius still cover all corners depends on the last bits of all coordinates", "anchors": ["src/wfmath/ball_funcs.h: boundingBox", "src/wfmath/axisbox_funcs.h: boundingSphere", "src/wfmath/intersect.h: Contains(Ball, AxisBox)"]}
{"id": "C122", "title": "Quaternion products in floating point", "statement": "Computed in doubles, a quaternion made from components not all 0 is within epsilon of the unit quaternion in their direction; the product and the quotient of quaternions that stand for two unit quaternions stand for their product and quotient, the errors adding up plus 7 epsilon; and in a computation of any length that multiplies or divides a quaternion by unit quaternions the norm stays within a fixed multiple of epsilon of 1.", "quantifier": "all quaternions, all histories of any length, every rounding to nearest", "why_tests_cant": "the claim is about unboundedly long histories and about the last bits of every operand", "anchors": ["src/wfmath/quaternion.cpp: Quaternion(w,x,y,z), operator*=, operator/=, normalize", "src/wfmath/quaternion.h: checkNormalization, inverse"]}
{"id": "C123", "title": "Rotating vectors by quaternions in floating point", "statement": "Computed in doubles, rotating a vector by a quaternion that stands for a unit quaternion u gives the vector turned by u, keeps lengths and inner products, composes like the product of the quaternions and is undone by the inverse, all up to errors in proportion to the length of the vector.", "quantifier": "all vectors, all quaternions near unit quaternions, every rounding to nearest", "why_tests_cant": "the error bound has to hold for every vector and quaternion; cancellation between the three terms of the formula is worst for particular directions", "anchors": ["src/wfmath/vector.cpp: Vector<3>::rotate(Quaternion)", "src/wfmath/quaternion.cpp: operator*="]}
{"id": "C124", "title": "Rotation matrices in floating point", "statement": "Computed in doubles, a rotation matrix that stands for an orthogonal matrix R with error d takes every vector to its image under R, from either side, up to d plus n^2 units of rounding times its length; the four products of two matrices (with either one inverted) stand for the corresponding products of R and S, the errors adding up; and a chain of k products stands for the product of the k matrices with an error that grows in proportion to k.", "quantifier": "all dimensions below 2^52, all matrices near orthogonal ones, all vectors, all chains of products, every rounding to nearest", "why_tests_cant": "the bound is on every direction at once and on chains of any length", "anchors": ["src/wfmath/rotmatrix_funcs.h: Prod, ProdInv, InvProd, InvProdInv", "src/wfmath/rotmatrix_funcs.h: Prod(RotMatrix, Vector), InvProd(RotMatrix, Vector)"]}
{"id": "C125", "title": "Coordinate changes of points in floating point", "statement": "Computed in doubles, toParentCoords and toLocalCoords of a point, with a matrix or a quaternion, give the point of the exact change of coordinates up to an error in proportion to the distances involved plus one rounding of the origin, one undoes the other to the same accuracy, and rotating a point about another one moves it along the exact rotation to that accuracy. The same for a point turned about another by a quaternion.", "quantifier": "all points, origins, rotations near exact ones, every rounding to nearest", "why_tests_cant": "errors depend on how far the origin is from the points and on cancellation in every coordinate", "anchors": ["src/wfmath/point.h: toParentCoords, toLocalCoords, rotate", "src/wfmath/point.cpp: toParentCoords, toLocalCoords, rotate (Quaternion)"]}
{"id": "C126", "title": "Barycenters in floating point", "statement": "Computed in doubles, the barycenter of up to 2^52 points differs in every coordinate from the mean by at most 2^-52 times the sum of the absolute values of the coordinates; with nonnegative weights, by 2k+1 units of 2^-52 times the weighted mean of the absolute values for k points; the barycenter of one point is that point; and validity is that of the points.", "quantifier": "all lists of up to 2^52 points, all nonnegative weights, every rounding to nearest", "why_tests_cant": "the number of points is arbitrary and the error accumulates with every addition", "anchors": ["src/wfmath/point_funcs.h: Barycenter"]}
{"id": "C127", "title": "Different seeds give different streams", "statement": "Two random generators seeded with different 32-bit words differ already within their first 624 results, whatever they did before; 624 equal results in a row of any two generators mean that all later results are equal; a generator seeded with a word or an array never gives 624 zeros in a row.", "quantifier": "all seeds, all arrays of words, all tables, all numbers of draws", "why_tests_cant": "there are 2^63 pairs of seeds and 2^19937 states", "anchors": ["src/wfmath/randgen.cpp: seed, randInt", "src/wfmath/randgen.h: MTRand"]}
{"id": "C128", "title": "Seeding without arguments", "statement": "seed() without arguments uses the first 624 words of the random device if it can read them and otherwise the hash of time, clock and a counter; the generator works afterwards in every case; calls at the same time and clock give different streams.", "quantifier": "all contents of the device (present, short, long), all times and clocks, all counters, whatever was in memory", "why_tests_cant": "the device, the time and the clock are not under the test's control", "anchors": ["src/wfmath/randgen.cpp: seed(), hash"]}
{"id": "C129", "title": "Sloppy lengths and sloppy bounding spheres in floating point", "statement": "With every operation rounded to a double, sloppyMag() is never below the length and never above it by more than the documented factor, up to a few units in the last place; boundingSphereSloppy() of a box or segment and BoundingSphereSloppy of a nonempty list of points give a ball that contains the whole object, up to a rounding error proportional to the size of the coordinates and the number of points; a program compiled with assertions does not abort.", "quantifier": "all vectors, boxes, segments and lists of points whose coordinates are doubles, all ways of breaking ties", "why_tests_cant": "rounding errors accumulate over unbounded lists and depend on every digit of the input", "anchors": ["src/wfmath/vector.cpp: sloppyMag", "src/wfmath/ball_funcs.h: BoundingSphereSloppy", "src/wfmath/axisbox_funcs.h: boundingSphereSloppy", "src/wfmath/segment.h: boundingSphereSloppy"]}
{"id": "C130", "title": "Building rotations in floating point", "statement": "With every operation rounded to a double, and sin and cos off by at most one unit in the last place of 1: the rotation matrix built from two axes and an angle, and the vector rotated by an angle in a coordinate plane, are those of the exact rotation up to a few units in the last place; the quaternions built from an axis and an angle, from an axis whose length is the angle, and from the number of a coordinate axis, are close to a unit quaternion standing for the rotation about that axis by that angle; the matrix made of a quaternion and the quaternion itself turn every vector alike up to rounding; rotating a matrix by a quaternion turns it by the same rotation up to rounding.", "quantifier": "all angles, axes, unit quaternions up to a small error, vectors and matrices standing for an orthogonal matrix, all ways of breaking ties, every sin and cos with the stated error", "why_tests_cant": "rounding errors depend on every digit of the input; a test compares a few angles with a tolerance", "anchors": ["src/wfmath/rotmatrix_funcs.h: rotation(i, j, theta)", "src/wfmath/vector_funcs.h: rotate(axis1, axis2, theta)", "src/wfmath/quaternion.cpp: rotation(axis, angle), rotation(axis), rotation(int, angle)", "src/wfmath/rotmatrix.cpp: fromQuaternion, rotate(Quaternion)"]}
{"id": "C131", "title": "Turning rotation matrices into quaternions in floating point", "statement": "With every operation rounded to a double, Quaternion::fromRotMatrix of a matrix that stands for a rotation up to an error gives a quaternion that stands for the same rotation (with either sign) up to a small multiple of that error and a few units in the last place, also for a matrix marked as a mirror, whose mirrored first axis is taken out first; the assertion in the conversion never fails; a quaternion turned into a matrix and back comes back, up to its sign and rounding; rotating a quaternion by a matrix is the product of the two rotations.", "quantifier": "all matrices of doubles near a rotation matrix, with either parity, all quaternions near a unit quaternion, all ways of breaking ties", "why_tests_cant": "the conversion branches on computed sums and divides by a computed root; the loss of accuracy depends on every digit of the input and tests try a few rotations", "anchors": ["src/wfmath/quaternion.cpp: fromRotMatrix, rotate(RotMatrix)", "src/wfmath/rotmatrix_funcs.h: trace, Prod", "src/wfmath/rotmatrix.cpp: fromQuaternion"]}
{"id": "C132", "title": "Validity, parity and age in floating point", "statement": "With every operation rounded to a double, the result of a vector, point, box, ball, quaternion or matrix operation is marked valid exactly when all its operands are: rounding never makes a value valid or invalid (in particular a computed radius is never negative, which would invalidate a ball). Products of matrices are marked as mirrors exactly when one of the factors is; the age of a product is the sum of the ages until renormalisation resets it. The same holds of rotated boxes (corners, center, bounding box and sphere, turning), and rotations built from an angle are valid, not mirrors and of age 1 unless the axis given is not one.", "quantifier": "all operands of all operations of the rounded model, all ways of breaking ties", "why_tests_cant": "the flags must be right for every combination of operands, and the sign of a computed radius depends on rounding", "anchors": ["src/wfmath/vector_funcs.h", "src/wfmath/point_funcs.h", "src/wfmath/axisbox_funcs.h: boundingSphere", "src/wfmath/ball_funcs.h: boundingBox", "src/wfmath/quaternion.cpp: operator*=, operator/=, fromRotMatrix", "src/wfmath/rotmatrix_funcs.h: Prod, ProdInv, InvProd, InvProdInv"]}
{"id": "C133", "title": "The generator's stream repeats from its start", "statement": "The stream of a seeded generator has no tail that leads into a cycle: it is periodic from its first result, with a period of fewer than 2^19937 results, whatever the seed or key. The same holds, with a period of at most 2^19937, of every generator that does not stand at the first word of its table, also after loading a state. A generator that stands there (only a loaded one can) may give one result that never comes back.", "quantifier": "all seeds, all nonempty keys, all states of the generator, any number of results drawn", "why_tests_cant": "the period is far longer than any run", "anchors": ["src/wfmath/randgen.h: MTRand", "src/wfmath/randgen.cpp: MTRand::randInt, MTRand::seed"]}
{"id": "C134", "title": "Tests with line segments in floating point", "statement": "Computed in doubles, the tests that involve a line segment keep to the exact answers up to stated margins. Segment and box: the answer is the exact one for a box whose faces are moved by at most 3 units in the last place of their distance from the start of the segment. Segment and ball: accepted means the segment meets the ball enlarged by a factor 1 + epsilon and by 2^-49 times the distance from the segment's start to the centre; a segment that enters the ball by a slightly larger margin is accepted. Segment and point, in the plane and in space: every point of the segment is accepted, between the ends properly too unless the segment is shorter than 5 epsilon, and never properly at the ends; what the proper test accepts is within sqrt(20 epsilon) lengths of the segment. Box containing a segment: proper answers are exact. Ball containing a segment, and segment containing a segment, box or ball: what is contained is accepted, what is properly accepted is contained up to the margin.", "quantifier": "all segments, boxes, balls and points, up to 50 dimensions (3 for acceptance of points on a segment), every correct rounding to nearest, with no overflow or underflow", "why_tests_cant": "the margins must hold for all coordinates, and for all patterns of rounding errors", "anchors": ["src/wfmath/intersect.h: Intersect(Segment, Point), Intersect(Segment, AxisBox), Intersect(Segment, Ball), Contains with segments", "src/wfmath/segment.h: Segment", "src/wfmath/const.h: Equal"]}
{"id": "C135", "title": "Rotated boxes in floating point", "statement": "Computed in doubles, a rotated box behaves like the box turned by the exact rotation that its orientation stands for, up to stated margins proportional to the error E of the orientation, the distances from the box's corner and 2^-50 times the size of the coordinates. Its corners and center are near the exact ones; its bounding box holds the exact box and is touched by it, up to the margin; its bounding sphere holds it up to the margin. The tests of a rotated box with a point, ball, segment and axis-aligned box (containing it, contained in it, and meeting it in the plane), and of two rotated boxes (containing, and meeting in the plane), accept whatever holds by more than the margin and, when they accept, the claim holds up to the margin, and up to epsilon in the tolerant test. Turning a rotated box about a point keeps its size, turns its corner, and its orientation then stands for the product of the rotations. In space the tests of a rotated box meeting an axis-aligned box, and of two rotated boxes meeting, do the same when no edge of one is nearly parallel to an edge of the other: if every angle between edges has sine at least lambda, where lambda is at least E (3E for two rotated boxes) plus 2 epsilon, the margin is divided by lambda (an edge lying exactly along an axis is allowed too).", "quantifier": "all rotated boxes whose orientation is within E - 2n(n+1) 2^-52 of an exact rotation or mirror rotation, E at most 1/4 (1/12 for two rotated boxes), in any number of dimensions (50 for balls, 2 and 3 for meeting boxes), all points, balls, segments and boxes, every correct rounding to nearest, with no overflow or underflow", "why_tests_cant": "the margins must hold for all coordinates, orientations and patterns of rounding errors", "anchors": ["src/wfmath/rotbox.h: RotBox", "src/wfmath/rotbox_funcs.h: getCorner, getCenter, boundingBox, rotatePoint", "src/wfmath/intersect.h: Intersect and Contains with RotBox", "src/wfmath/intersect.cpp: Intersect<2>(RotBox, AxisBox), Intersect<3>(RotBox, AxisBox)"]}
{"id": "C136", "title": "Plane polygons in floating point", "statement": "Computed in doubles, the tests of a plane polygon with a point, box and ball keep to the exact answers up to stated margins. Point: outside a margin (the tolerance of the comparison plus 2^-48 times the size of the corners, measured horizontally from the sides) the answer is yes exactly for the points inside by the even-odd rule. A point on a side that crosses its height is accepted, and not properly, when the ends of the side are at most twice as far from the second axis as the point; nearer to that axis even a corner of the polygon may be rejected. Box: when no side passes within the margin of a corner of the box and no corner of the polygon is on its rim, Contains(polygon, box) is exact, and so is Intersect unless all corners of the polygon are in the box. Ball: Intersect(polygon, ball) accepts what meets the ball shrunk by the margin and what it accepts meets the ball grown by the margin; a ball that is accepted by Contains(polygon, ball) is inside the polygon after shrinking, and one that is inside after growing is accepted. Contains(box, polygon) is exact with proper and exact up to epsilon (1 + 2^-52) without; Contains(ball, polygon) is exact up to a factor 1 + epsilon of the radius, and the tolerance; in the statements for balls, corners so near to the centre that the squared distance is set to 0 are excepted; Contains(point, polygon) says that all corners equal the point.", "quantifier": "all plane polygons with any number of corners, self-crossing or not; all points, boxes and balls; every correct rounding to nearest, with no overflow or underflow; both values of proper", "why_tests_cant": "the margins must hold for all coordinates and all patterns of rounding errors, and the parity count joins the errors of all sides", "anchors": ["src/wfmath/polygon_intersect.cpp: Intersect<2>(Polygon, Point), Intersect<2>(Polygon, AxisBox), Contains<2>(Polygon, AxisBox), Contains<2>(AxisBox, Polygon), Intersect<2>(Polygon, Ball), Contains<2>(Polygon, Ball), Contains<2>(Ball, Polygon), Contains<2>(Point, Polygon)"]}
{"id": "C137", "title": "Renormalising rotation matrices in floating point", "statement": "Computed in doubles, normalize() of a matrix that departs from orthogonality by d (every entry of m m^T - 1 is at most d, d at most 1/1000) succeeds, leaves parity and validity alone, sets the age to 1, and gives a matrix that departs from orthogonality by at most d^2 plus rounding and whose entries differ from the old ones by at most 8/5 d plus rounding. As the inverse inside is computed by elimination without exchanging rows, the rounding is 2^-47 P^2 in the plane, where 1/P is the size of the first entry, and 2^-45 P^5 in space, where 1/P is the smaller of the first two leading minors (for a rotation, of the first and the last diagonal entry); without a condition on these entries the property fails: a quarter turn of the plane that is accurate to 2^-52 can come back with an entry -16, both from normalize() and from a product that renormalises. With the renormalisation of products at age 20, errors do not build up: if the minors are at least 1/P whenever a product is renormalised, then any number of products of rotations, in any order and with any of them inverted, changes no length by more than the fraction 2^-38 P^2 in the plane and 2^-35 P^5 in space.", "quantifier": "all nearly orthogonal matrices of doubles in two and three dimensions whose leading minors are not small, every rounding to nearest", "why_tests_cant": "the bound is on every pattern of rounding errors in some forty dependent operations, and the failures are at isolated angles", "anchors": ["src/wfmath/rotmatrix_funcs.h: RotMatrix::normalize, _setVals", "src/wfmath/rotmatrix.cpp: _MatrixInverseImpl, _MatrixSetValsImpl", "src/wfmath/rotmatrix.h: checkNormalization"]}
{"id": "C138", "title": "Setting a rotation matrix from numbers in floating point", "statement": "Computed in doubles, for 2 and 3 dimensions: if setVals(array, precision) returns true, then |precision| < 0.9, every entry of a a^T - 1 for the array a is at most |precision| + 2^-49, and what is stored departs from orthogonality by at most the epsilon of the library plus 2^-50, consists of doubles, is valid and has age 1; if it returns false the object is as before. It returns false when |precision| >= 0.9 or when the array departs from orthogonality by more than |precision| + 2^-49. An array that departs by no more than epsilon - 2^-50 (and |precision| - 2^-50) is stored as it is. In the plane determinant() of what is stored is -1 exactly when the stored matrix is a reflection, and an array that departs by d up to 1/1000 and less than the precision is accepted after at most three rounds of improvement, stored with a change of at most 2 d + 2^-44 and the parity of the array, if its first entry is at least 4/5. In space the parity is right if the first two leading minors of what is stored are at least 1/256 in size; without this it can be wrong: a reflection accurate to 2^-51 whose first entry is 2^-60 is stored as a rotation.", "quantifier": "all arrays of doubles, all precisions, all previous contents of the matrix, every rounding to nearest", "why_tests_cant": "acceptance is decided by rounded sums near a threshold, and the parity by the sign of a rounded determinant: the arrays for which it is lost are isolated", "anchors": ["src/wfmath/rotmatrix.cpp: _MatrixSetValsImpl, _MatrixDeterminantImpl, _MatrixInverseImpl", "src/wfmath/rotmatrix_funcs.h: RotMatrix::setVals"]}
{"id": "C139", "title": "Rotations and reflections given by directions in floating point", "statement": "In double precision arithmetic, mirror(v) is the reflection in the hyperplane orthogonal to v, up to 2^-46 of every length, for every nonzero v. rotation(v1, v2, theta) turns v1 by theta towards v2 and fixes everything perpendicular to both; rotation(from, to), of matrices and of quaternions, takes the direction of from to that of to; in both cases up to an error that grows only with the nearness of the degenerate case: 2^-39 times |v2| over the part of v2 perpendicular to v1, and 2^-41 or 2^-42 over one plus the cosine of the angle between from and to. Vectors for which no rotation is determined (parallel, or opposite in space) are reported, and in two dimensions opposite vectors give a half turn.", "quantifier": "all vectors of up to three components with coordinates in double precision, all angles, every rounding to nearest and every sine and cosine accurate to 2^-52", "why_tests_cant": "The error depends on how close the vectors are to being parallel or opposite and on how every intermediate result rounds; the failures need particular low-order bits that no hand-written test has.", "anchors": ["src/wfmath/rotmatrix_funcs.h: RotMatrix::rotation(v1, v2, theta)", "src/wfmath/rotmatrix_funcs.h: RotMatrix::rotation(from, to)", "src/wfmath/rotmatrix_funcs.h: RotMatrix::mirror(v)", "src/wfmath/quaternion.cpp: Quaternion::rotation(from, to)"]}
{"id": "C140", "title": "Polygons in space in floating point", "statement": "In double precision arithmetic a polygon in space keeps the corners that were added: after any history of addCorner calls numCorners counts the accepted points, every corner can be read and is valid, and the corner read is the accepted point up to 3 epsilon, plus 2^-51 of the distance of the point accepted first from the origin, plus a factor times the distance from the point accepted first. The factor is the square root of the tolerance plus twice the inner product of the two axes of the plane plus 2^-46; with the default tolerance or a larger one the inner product of the axes is at most 2^-22, so that the factor is at most sqrt(eps + 2^-20). The axes stay unit vectors up to 2^-48, and their inner product is at most 2^-45 times the distance of one accepted point from the first, divided by its distance from the line of the first axis. The point accepted first is read back exactly. A failed addCorner changes nothing, and a point near the plane is accepted when the tolerance is at least twice the inner product of the axes, plus four times its relative distance from the plane, plus 2^-44.", "quantifier": "all sequences of addCorner calls with any points of up to three coordinates, indices and nonnegative tolerances, and every rounding to nearest", "why_tests_cant": "The plane is fixed by the first corners that are accepted, with their rounding errors, and every later corner is stored relative to it; only an invariant over all histories bounds the error.", "anchors": ["src/wfmath/polygon_funcs.h: _Poly2Orient::expand", "src/wfmath/polygon_funcs.h: _Poly2Orient::convert", "src/wfmath/polygon.h: Polygon::addCorner", "src/wfmath/polygon.h: Polygon::getCorner"]}
{"id": "C141", "title": "Moving and turning shapes in floating point", "statement": "In double precision arithmetic shift moves every corner of a segment, line or plane polygon, the centre of a ball and the first corner of a rotated box to the exact shifted place with each coordinate rounded once, and shifting a segment back returns it up to 3/2 units in the last place. moveCornerTo puts the named end of a segment exactly at the point and keeps the offset of the other end up to rounding; for lines and polygons it moves every corner by the offset from the named corner up to rounding. moveCenterTo moves every corner by the offset from the exact centre up to 2^-50 of the sum of the coordinates' sizes. rotatePoint, rotateCorner and rotateCenter with a matrix or quaternion that is near an exact rotation put every corner near the exact rotation about the point, corner or exact centre, and the named corner stays exactly (segments always, lines and polygons with double coordinates). For rotated boxes the sizes stay, the new orientation is near the product of the rotations, and the exact corners of the result are near the exact corners moved or turned. A corner that is not there is refused. Going to a parent frame and back returns every corner up to rounding, and a ball keeps its radius and validity. The ends of a segment taken to another frame given by a quaternion, or back, come out next to the exact coordinates too.", "quantifier": "all shapes in any number of dimensions, all points, vectors, corner indices, matrices and quaternions near an exact rotation, and every rounding to nearest", "why_tests_cant": "The bounds must hold for all real coordinates and for all matrices near a rotation; tests compare a few shapes with a tolerance.", "anchors": ["src/wfmath/segment_funcs.h: Segment::moveCornerTo", "src/wfmath/segment_funcs.h: Segment::rotateCorner", "src/wfmath/segment.h: Segment::moveCenterTo", "src/wfmath/line_funcs.h: Line::shift", "src/wfmath/line_funcs.h: Line::rotatePoint", "src/wfmath/polygon.cpp: Polygon<2>::toParentCoords", "src/wfmath/rotbox.h: RotBox::moveCornerTo", "src/wfmath/rotbox.h: RotBox::rotatePoint", "src/wfmath/ball.h: Ball::toParentCoords"]}
{"id": "C142", "title": "Overflow and underflow in lengths, distances and comparisons", "statement": "With the limited range of doubles, the length, the normalised vector, the distance, the test of a point against a ball and the comparison of vectors or points keep their accuracy for every vector of finite doubles. (They do while the coordinates are 0 or within stated powers of two: 2^-500 to 2^500 for the length, 2^-300 to 2^300 for normalising, 2^-440 to 2^499 for distances, balls and comparisons. Outside they do not: a component of 2^512 makes the length infinite and normalises to the zero vector, components below 2^-538 make the length 0 and normalise to infinities and NaN, points 2^512 apart are infinitely distant, and a ball of radius 2^512 contains every point.).  (The test of a point against a box and the comparisons of matrices and of quaternions are safe for all finite doubles; the scalar product and Equal of two numbers are safe within 2^-400 to 2^400 and 2^-440 to 2^499.).  (Without a lower limit on the coordinates, zeros and subnormal numbers included: the length and the distance have an additional error of at most 2^-526 and 2^-520, the scalar product one of n 2^-1074, normalising one of 2^-1075 in each component when the length is between 2^-450 and 2^500; the comparisons of vectors, points and numbers hold for all finite doubles, up to a unit in the last place of the tolerance and the smallest double.)", "quantifier": "all vectors and points of finite doubles with at most 2^20 coordinates, and every rounding to nearest with gradual underflow", "why_tests_cant": "The range where no intermediate square overflows or underflows has boundaries in every coordinate; tests use numbers near 1.", "anchors": ["src/wfmath/vector_funcs.h: Vector::sqrMag", "src/wfmath/vector.h: Vector::mag", "src/wfmath/vector.h: Vector::normalize", "src/wfmath/point_funcs.h: SquaredDistance", "src/wfmath/point.h: Distance", "src/wfmath/intersect.h: Intersect(Ball, Point)", "src/wfmath/vector_funcs.h: Vector::isEqualTo"]}
{"id": "C143", "title": "NaN coordinates", "statement": "Comparisons, distances and containment tests do not treat a coordinate that is NaN as if it were a proper coordinate: Equal rejects NaN, isEqualTo accepts no vector, point, matrix or quaternion with NaN, the distance to such a point is not a number, and it lies in no shape. (Equal does reject NaN, and lengths become NaN. The rest fails: a valid vector, point or matrix of NaNs is equal to every valid one, a quaternion with NaN vector part is equal to every one with the same scalar part, the cut-off of small values turns a NaN distance or scalar product into 0, and a point of NaNs lies in every ball and every box.)", "quantifier": "all vectors, points, matrices, quaternions, balls and boxes of doubles including infinities and NaN, all tolerances and every rounding to nearest", "why_tests_cant": "The answer depends on which way every comparison is written and on every position a NaN may have; tests contain no NaN.", "anchors": ["src/wfmath/const.cpp: Equal", "src/wfmath/const.cpp: _ScaleEpsilon", "src/wfmath/vector_funcs.h: Vector::isEqualTo", "src/wfmath/point_funcs.h: Point::isEqualTo", "src/wfmath/rotmatrix_funcs.h: RotMatrix::isEqualTo", "src/wfmath/quaternion.cpp: Quaternion::isEqualTo", "src/wfmath/point_funcs.h: SquaredDistance", "src/wfmath/vector_funcs.h: Dot", "src/wfmath/intersect.h: Intersect(AxisBox, Point)"]}
{"id": "C144", "title": "Moving and turning polygons in space in floating point", "statement": "In double precision arithmetic a polygon in space moves and turns as a rigid body up to rounding. A polygon made by addCorner calls has a plane whose axes are unit vectors and perpendicular up to 2^-22. For every polygon whose plane has such axes (up to 1/10 is enough): shift moves every corner by the vector, moveCornerTo and moveCenterTo by the difference between the point given and the corner or centre read, rotatePoint, rotateCorner and rotateCenter turn every corner about the point given or read by the exact rotation the matrix or quaternion stands for, and toParentCoords and toLocalCoords with a point and a matrix or with an axis-aligned box change every corner as they change a point, each with an error of a few units in the last place of the distances involved plus the error of the matrix or quaternion times the distance from the centre of the turn. Every corner that could be read can be read again and is as valid as before, the number of corners stays, the axes of the plane stay nearly perpendicular unit vectors (each turn adds at most three times the error of the rotation), moveCornerTo and rotateCorner refuse an index with no corner, and getCenter is the mean of the corners read, up to 2^-49 of the distance of the plane from the origin plus the sum of the distances of the corners in the plane. toParentCoords and toLocalCoords with a rotated box do the same.", "quantifier": "all polygons in space with nearly perpendicular unit axes, all vectors, points, indices, boxes, rotation matrices and quaternions near an exact rotation, in any dimension for matrices, and every rounding to nearest", "why_tests_cant": "The corners are stored as pairs of numbers in a plane of which only the origin and the axes move, so the error of every corner after every history of moves depends on all earlier roundings; tests see a few polygons and moves.", "anchors": ["src/wfmath/polygon.h: Polygon<dim>::shift, moveCornerTo, moveCenterTo, rotateCorner, rotateCenter, rotatePoint, toParentCoords, toLocalCoords, getCenter", "src/wfmath/polygon_funcs.h: Poly2Orient::rotate, rotate2, convert"]}
{"id": "C145", "title": "Sums, midpoints, rotations and coordinate changes over the whole range of doubles", "statement": "Over the whole range of doubles, subnormal numbers included: the sum and difference of two vectors is correct to half a unit in the last place in every component whose exact value is a finite double, and infinite of the right sign from 2^1024 on; the midpoint of two points with finite coordinates is finite and within half a unit in the last place of the mean of the coordinates, up to two of the smallest doubles 2^-1074, even where the sum of the coordinates would overflow; turning a vector by a matrix near a rotation, rotatePoint, toParentCoords and toLocalCoords with a point and a matrix, and the centre of a rotated box are finite for coordinates up to 2^1000 and have the errors they have without a smallest exponent (C125, C141) plus a small multiple of 2^-1074; the frame changes by an axis-aligned box are correct to half a unit in the last place up to 2^1022; the barycenter of points is finite and near their mean. Multiplying or dividing a vector by a number is correct to half a unit in the last place plus 2^-1075 in every component whose exact value is at most the largest double, and infinite of the right sign from 2^1024 on; dividing by zero gives no number. Midpoint with any weight in [0, 1] is finite up to 2^1021 and within six half units in the last place of the two coordinates. Turning a vector or a point by a quaternion near a unit quaternion, and toParentCoords and toLocalCoords with a quaternion, are finite up to 2^1000 and have the error of C123 plus 2^-1068.", "quantifier": "all vectors, points and matrices of doubles, zeros and subnormal numbers included, in every dimension up to 2^20, all lists of up to 2^20 points, and every rounding to nearest", "why_tests_cant": "The coordinates go over all doubles, subnormal ones included, and every intermediate result must be shown not to overflow; tests use coordinates of ordinary size.", "anchors": ["src/wfmath/vector_funcs.h: operator+=, operator-=", "src/wfmath/point_funcs.h: Midpoint, Barycenter", "src/wfmath/point.h: rotate, toParentCoords, toLocalCoords", "src/wfmath/rotmatrix_funcs.h: Prod", "src/wfmath/rotbox.h: getCenter"]}
{"id": "C146", "title": "Quaternions made from numbers over the whole range of doubles", "statement": "Over the whole range of doubles: the quaternion made from four numbers of length between 2^-450 and 2^500 has finite components and is the unit quaternion in that direction up to 2^-50, also when squares of small components underflow. Quaternion::fromAtlas leaves an invalid quaternion when a number in the list is infinite or NaN, or the list is shorter than numeric_constants::epsilon(), and otherwise, up to length 2^500, a valid one that is the unit quaternion in that direction up to 2^-50. Quaternion::rotation(axis, angle) leaves an invalid quaternion for an axis shorter than the cut-off and, up to length 2^500, one with the cosine of half the angle and the sine of half the angle along the axis up to 2^-50. A quaternion that is marked valid is near a unit quaternion.", "quantifier": "all quadruples of doubles, all axes and all values of sine and cosine in [-1, 1], every rounding to nearest", "why_tests_cant": "The numbers go over all doubles, subnormal, infinite and NaN ones included; which squares overflow or underflow depends on all of them together.", "anchors": ["src/wfmath/quaternion.cpp: Quaternion(w, x, y, z), rotation(axis, angle)", "src/wfmath/atlasconv.h: Quaternion::fromAtlas"]}
{"id": "C147", "title": "Rotated boxes turned by quaternions and taken to other frames in floating point", "statement": "In double precision arithmetic, rotatePoint, rotateCorner and rotateCenter of a rotated box with a quaternion near a unit quaternion keep the sizes, turn the orientation by the same rotation, and put every corner next to the exact rotation about the point, corner or centre; an index with no corner is refused. toParentCoords and toLocalCoords, with a point and a quaternion, a point and a matrix, an axis-aligned box or another rotated box, keep the sizes and put every corner next to the place where the exact change of coordinates puts it, and one undoes the other up to rounding.", "quantifier": "all rotated boxes whose orientation is within 1/4 of an exact rotation, all quaternions within 1/100 of a unit quaternion, all matrices within 1/4 of an exact rotation, all points, all roundings to nearest with 53 digits, all dimensions for matrices", "why_tests_cant": "rounding errors of the products depend on every digit of the inputs; only a bound for all of them says that the corners of a box do not drift away from the rigid motion", "anchors": ["src/wfmath/rotbox.cpp: rotatePoint, rotateCorner, rotateCenter, toParentCoords, toLocalCoords", "src/wfmath/rotbox.h: toParentCoords, toLocalCoords", "src/wfmath/rotmatrix.cpp: rotate(Quaternion)"]}
{"id": "C148", "title": "Axis-aligned boxes of doubles, also with infinite corners", "statement": "For boxes and points whose coordinates are doubles, finite or infinite but not NaN: Intersect(box, point), Intersect(box, box) and Contains(box, box) agree with the comparison of the exact coordinates, infinite ones included. The proper tests are exact; the tolerant ones accept what is within epsilon and nothing that is further off than epsilon(1 + 2^-52), also when a difference overflows or both operands are infinite. Boxes that share a point are always reported, and a box with corners at minus and plus infinity contains every box. Union and Intersection give the smallest box holding both and the common part, Union does not depend on the order, BoundingBox of boxes or points has the smallest and largest coordinates, and setCorners sorts the corners.", "quantifier": "all boxes and points of doubles without NaN, all dimensions, all lists of boxes and points, all roundings to nearest", "why_tests_cant": "differences of infinities are NaN and differences of large doubles overflow; that no combination of them leads a comparison astray has to be shown for all of them", "anchors": ["src/wfmath/intersect.h: Intersect(AxisBox, Point), Intersect(AxisBox, AxisBox), Contains(AxisBox, AxisBox)", "src/wfmath/intersect_decls.h: _Less, _Greater", "src/wfmath/axisbox_funcs.h: Union, Intersection, setCorners, BoundingBox", "src/wfmath/const.h: FloatMin, FloatMax"]}
{"id": "C149", "title": "Points and polygons in space in floating point", "statement": "In double precision arithmetic Intersect(polygon, point) for a polygon in space answers as the points of the plane near the point do. It is false when no point of the plane near the point is inside the polygon by the even-odd rule, in particular when the point is far from the plane; it is true when the points of the plane near the point are inside and the point is near enough to the plane; and a point that is accepted has a point inside the polygon near it. Points of the plane within the margin of a side are left open. Near means within 1.01 sqrt(epsilon) times the distance of the point from the origin of space, plus 2^-49 times its distance from the first corner. The origin of space, however, is never found in a polygon. A polygon in space never contains a ball of positive radius, and contains one of radius zero exactly when it contains its center.", "quantifier": "all polygons of up to three dimensions whose plane axes are unit vectors up to rounding, which all polygons built by addCorner and moved by shift have, all points, both proper flags and every rounding to nearest", "why_tests_cant": "the point is projected with rounded inner products to axes that are themselves rounded; only an error bound for all of them shows that the tolerance of the test covers the errors", "anchors": ["src/wfmath/polygon_intersect.cpp: Poly2Orient::offset", "src/wfmath/polygon_intersect.cpp: Poly2Orient::checkContained", "src/wfmath/polygon_intersect.cpp: Intersect(Polygon<dim>, Point<dim>)", "src/wfmath/polygon_intersect.cpp: Contains(Polygon<dim>, Ball<dim>)"]}
{"id": "C150", "title": "Bounding spheres in floating point", "statement": "In double precision arithmetic, BoundingSphere of a list of points with at least two different points returns a ball that contains all of them up to a relative error of epsilon in the radius, that has a point of the list on its surface up to the same error, so that no ball with the same center contains the points with a radius smaller by more, and that is valid exactly when all points are. For two points the radius is half their distance and the center the midpoint, up to rounding of the coordinates. The assertions in the function only check: without them the same ball is returned. When all points are equal the ball is that point with radius zero. Two points whose distance is at least a quarter of their distances from the origin pass the assertions, so that a ball is returned also with them.", "quantifier": "all nonempty lists of points of up to three dimensions and every rounding to nearest", "why_tests_cant": "the incremental construction branches on rounded comparisons, so that the support set and the center depend on all rounding errors; what holds of every list has to follow from the check at the end", "anchors": ["src/wfmath/ball_funcs.h: BoundingSphere", "src/wfmath/miniball_funcs.h: Miniball::build", "src/wfmath/miniball_funcs.h: Miniball::accuracy", "src/wfmath/miniball_funcs.h: Basis::push", "src/wfmath/miniball_funcs.h: Basis::excess"]}
{"id": "C151", "title": "Balls that contain polygons in space in floating point", "statement": "In double precision arithmetic Contains(ball, polygon) for a polygon in space answers as the squares of the distances of the corners from the center do, up to a margin. When it is true the convex hull of the corners is in the ball, up to the tolerance of the comparison and of the squared distance in the plane and the margin in the square of the distance; when it is false some corner is outside the ball or nearer its surface than the margin; and a ball whose surface is farther from all corners than the margin is found to contain the polygon. The margin is 2^-42 times the sum of the squares of the radius, of the distance of the center from the first corner and of the size of the polygon, more when the computed axes of the plane are not perpendicular.", "quantifier": "all polygons of up to three dimensions whose plane axes are unit vectors up to rounding, which all polygons built by addCorner and moved by shift have, all balls, both proper flags and every rounding to nearest", "why_tests_cant": "the center is projected to the plane and the distances are put together from two rounded parts; that the parts are perpendicular enough for all planes and centers needs an error bound", "anchors": ["src/wfmath/polygon_intersect.cpp: Contains(Ball<dim>, Polygon<dim>)", "src/wfmath/polygon_intersect.cpp: Poly2Orient::offset", "src/wfmath/point_funcs.h: SquaredDistance"]}
{"id": "C152", "title": "Polygons in space that meet balls in floating point", "statement": "In double precision arithmetic Intersect(polygon, ball) for a polygon in space answers as the distances of the points of the polygon from the center do, up to a margin in the square of the distance. When some point of the polygon is in the ball by more than the margin the answer is true; when the answer is true some point of the polygon is in the ball or nearer its surface than the margin. The margin is 2^-40 times the square of one plus the radius, the distance of the center from the first corner and the size of the polygon, more when the computed axes of the plane are not perpendicular. The proper test always gives an answer.", "quantifier": "all polygons of up to three dimensions whose plane axes are unit vectors up to rounding, all balls whose radius is not negative, both proper flags and every rounding to nearest", "why_tests_cant": "the center is projected to the plane and the radius of the disc there is the root of a difference that loses all its digits when the ball hardly reaches the plane; that the answers are still right up to a margin in the square holds for all positions only by an error bound", "anchors": ["src/wfmath/polygon_intersect.cpp: Intersect(Polygon<dim>, Ball<dim>)", "src/wfmath/polygon_intersect.cpp: Poly2Orient::offset", "src/wfmath/polygon_intersect.cpp: Intersect(Polygon<2>, Ball<2>)"]}
{"id": "C153", "title": "Boxes that contain polygons in space in floating point", "statement": "In double precision arithmetic Contains(box, polygon) for a polygon in space always gives an answer when the corners of the polygon can be read. For an axis-aligned box the proper test says exactly that the convex hull of the corners, as getCorner returns them, is inside the box; the tolerant test accepts every polygon whose corners are in the box up to epsilon and what it accepts is in the box up to epsilon and one rounding. The points a polygon was made from by addCorner are near points of the box when the answer is true. For a rotated box whose orientation is a rotation up to E the same holds of the exactly turned box, up to a margin that is a multiple of E and the rounding unit times the distances involved.", "quantifier": "all axis-aligned and rotated boxes and all polygons of any dimension whose corners can be read, both proper flags and every rounding to nearest; for rotated boxes, orientations that are a rotation up to E at most 1/100 and polygons whose axes are unit vectors and perpendicular up to 1/10", "why_tests_cant": "for a rotated box the polygon is turned about the corner of the box before its corners are computed and compared, so that every coordinate is rounded many times; that no corner is misplaced by more than the margin holds for all boxes, polygons and rotations only by an error bound", "anchors": ["src/wfmath/polygon_intersect.cpp: Contains(AxisBox<dim>, Polygon<dim>)", "src/wfmath/polygon_intersect.cpp: Contains(RotBox<dim>, Polygon<dim>)", "src/wfmath/polygon_intersect.cpp: Poly2Orient::rotate"]}
{"id": "C154", "title": "Segments that meet polygons in space in floating point", "statement": "In double precision arithmetic Intersect(polygon, segment) for a polygon in space is false when both ends of the segment are on the same side of the plane of the polygon, by more than the error of the heights. When the ends are on opposite sides by more than that error, the answer is that of the point where the segment crosses the plane: true if that point, and every point within the error of it, is inside the polygon and clear of its sides, false if they are all outside. Whenever the answer is true for a segment not within rounding of the plane, a point of the segment is near a point of the plane that is inside the polygon or near one of its sides. A segment that lies in the plane and crosses the polygon is missed.", "quantifier": "all polygons in space whose axes are unit vectors and perpendicular up to 1/10, all segments, both proper flags and every rounding to nearest", "why_tests_cant": "the heights of the ends over the plane come from successive rounded projections and the crossing point from a rounded weighted mean, so the bounds on its place hold for all planes and segments only by an error analysis", "anchors": ["src/wfmath/polygon_intersect.cpp: Intersect(Polygon<dim>, Segment<dim>)", "src/wfmath/polygon_intersect.cpp: Poly2Orient::offset", "src/wfmath/polygon_intersect.cpp: Intersect(Polygon<2>, Segment<2>)"]}
{"id": "C155", "title": "Segments and rotated boxes that contain polygons in floating point", "statement": "In double precision arithmetic Contains(segment, polygon) in the plane is true for every polygon whose corners are all on the segment; with proper it is true unless a corner is an end of the segment (then it is false) or the segment is shorter than five times epsilon. When the proper test is true, every point of the convex hull of the corners is within sqrt(20 epsilon) times the length of the segment of it. For a polygon in space the points it was built from by addCorner are then near the segment, up to the tolerance of addCorner and 2^-9 of the distance of the ends from the first point. A polygon without corners in space is contained by every segment. Contains(rotated box, polygon) in the plane accepts every polygon inside the exactly turned box by a margin of roundings, and accepts none with a corner outside it by more than that margin (and epsilon for the tolerant test).", "quantifier": "all segments, rotated boxes and polygons of the plane, both proper flags and every rounding to nearest; in space, all polygons built by any history of addCorner with a tolerance between epsilon and 1, and all segments; for rotated boxes, orientations that are a rotation up to E at most 1/4", "why_tests_cant": "the corners of a polygon in space are compared with the segment in coordinates of a plane that the segment itself may extend, each with its own rounding; that nothing far from the segment is accepted holds for all histories and segments only by an error bound", "anchors": ["src/wfmath/polygon_intersect.cpp: Contains(Segment<2>, Polygon<2>)", "src/wfmath/polygon_intersect.cpp: Contains(Segment<dim>, Polygon<dim>)", "src/wfmath/polygon_intersect.cpp: Contains(RotBox<2>, Polygon<2>)", "src/wfmath/polygon_funcs.h: Poly2Orient::expand"]}
{"id": "C156", "title": "Plane polygons and rotated boxes in floating point", "statement": "In double precision arithmetic, let the corners of a rotated box be farther than a margin of roundings from the sides of a plane polygon, and no corner of the polygon within such a margin of the rim of the box. Then Contains(polygon, box) is true when the box enlarged by the margin is inside the polygon by the even-odd rule, and when it is true the box reduced by the margin is inside. If some corner of the polygon is outside the enlarged box, Intersect(polygon, box) is true when the polygon and the reduced box have a point in common, and when it is true the polygon and the enlarged box have one. A polygon with all its corners in the reduced box is not found by Intersect, whatever the rounding. Both functions read past the storage of a polygon without corners. More generally, when the corners of a polygon move by at most some distance, every point farther than that from the sides stays inside or stays outside.", "quantifier": "all plane polygons (convex or not, self-intersecting included), all rotated boxes whose orientation is a rotation or reflection up to E at most 1/4, both proper flags and every rounding to nearest", "why_tests_cant": "the corners are turned into the coordinates of the box with a rounding each, so the sides that are tested are not those of the polygon; that no point well inside or outside changes sides holds for all polygons only by a continuity argument about the even-odd rule", "anchors": ["src/wfmath/polygon_intersect.cpp: Intersect(Polygon<2>, RotBox<2>)", "src/wfmath/polygon_intersect.cpp: Contains(Polygon<2>, RotBox<2>)", "src/wfmath/point.h: Point::rotate"]}
{"id": "C157", "title": "Plane polygons and points moved together in floating point", "statement": "A polygon of the plane and a point that are shifted by the same vector, rotated about the same point by the same matrix, or expressed in the coordinates of the same frame (toParentCoords, toLocalCoords), all in double precision arithmetic, answer Intersect(polygon, point) afterwards exactly as the even-odd rule says for the polygon and the point before, whenever the point is farther than a stated margin of roundings from the sides.", "quantifier": "all plane polygons, points, vectors, pivots and frames, all matrices that are a rotation or reflection up to E at most 1/4, both proper flags and every rounding to nearest", "why_tests_cant": "every corner and the point are rounded separately, so the moved polygon is a slightly different shape and the point is in a slightly different place; that this never changes the answer away from the sides holds for all polygons, self-intersecting ones included, only by the stability of the even-odd rule", "anchors": ["src/wfmath/polygon.cpp: Polygon<2>::shift, rotatePoint, toParentCoords, toLocalCoords", "src/wfmath/polygon_intersect.cpp: Intersect(Polygon<2>, Point<2>)", "src/wfmath/point.h: Point::rotate, toParentCoords, toLocalCoords"]}
{"id": "C158", "title": "Plane polygons and points after any history of motions in floating point", "statement": "A plane polygon and a point go through the same history of calls in double precision arithmetic: any number of shift, rotatePoint, toParentCoords and toLocalCoords in any order. As long as all vectors, pivots and frame origins, and the corners and the point after each call, stay within M of the origin, Intersect(polygon, point) answers at the end exactly as the even-odd rule says for the polygon and the point at the start, whenever the point is farther from the sides than a margin that grows only in proportion to the number of calls. For any number of rotations about one point it is enough to bound the corners and the point at the start.", "quantifier": "all plane polygons, points and finite histories of calls, of any length N with N (E + 5 2^-53) at most 1/4, all matrices that are rotations or reflections up to E, both proper flags and every rounding to nearest", "why_tests_cant": "the error is carried on from call to call, and each call can add to it or cancel it; a test runs one history, and drift over 2^40 turns cannot be run at all", "anchors": ["src/wfmath/polygon.cpp: Polygon<2>::shift, rotatePoint, toParentCoords, toLocalCoords", "src/wfmath/point.h: Point::shift, rotatePoint, toParentCoords, toLocalCoords", "src/wfmath/polygon_intersect.cpp: Intersect(Polygon<2>, Point<2>)"]}
{"id": "C159", "title": "Distances, balls and points after any history of motions in floating point", "statement": "Two points of any dimension go through the same history of calls in double precision arithmetic: any number of shift, rotatePoint, toParentCoords and toLocalCoords in any order, with matrices or, in space, with quaternions. As long as all vectors, pivots and frame origins, and the points after each call, stay within M of the origin, each call changes the distance of the points by at most 4 (2E + 2^-51) M. So Intersect(ball, point) and Intersect(ball, ball) answer after the history as they did before it, up to that drift and the factor 1 + epsilon, unless the moved centres are so near that SquaredDistance is set to 0. For any number of rotations about one point it is enough to bound the points at the start.", "quantifier": "all points, balls and finite histories of calls of any length, all dimensions (up to 50 for the ball tests), all matrices that are rotations or reflections up to E, all quaternions that are unit quaternions up to (E - 20 epsilon) / 13, E at most 1/10, both proper flags and every rounding to nearest", "why_tests_cant": "the error is carried on from call to call; a test runs one history, and a bound that holds for every history and every rounding needs an induction over the calls", "anchors": ["src/wfmath/point.h: Point::shift, rotatePoint, toParentCoords, toLocalCoords", "src/wfmath/point.cpp: Point<3>::rotate, toParentCoords, toLocalCoords", "src/wfmath/ball.h: Ball::shift, rotatePoint, toParentCoords, toLocalCoords", "src/wfmath/ball.cpp: Ball<3>::rotatePoint, toParentCoords, toLocalCoords", "src/wfmath/intersect.h: Intersect(Ball, Point), Intersect(Ball, Ball)"]}
{"id": "C160", "title": "Segments, balls and points after any history of motions in floating point", "statement": "A segment of any dimension and a point go through the same history of calls in double precision arithmetic: any number of shift, rotatePoint, toParentCoords and toLocalCoords in any order, with matrices or, in space, with quaternions. As long as all vectors, pivots and frame origins, and the ends of the segment and the point after each call, stay within M of the origin, each call changes the distance from the point to the point at any fixed fraction of the segment by at most 4 (2E + 2^-51) M. So Intersect(segment, ball) and Contains(ball, segment) answer after the history as they did before it, up to that drift and the margins of the tests, unless an end of the moved segment is so near to the moved centre that SquaredDistance is set to 0; and a point that Intersect(segment, point, true) finds on the moved segment was near the segment. For any number of rotations about one point it is enough to bound the points at the start.", "quantifier": "all segments, points, balls and finite histories of calls of any length, all dimensions (up to 50 for the tests), all matrices that are rotations or reflections up to E, all quaternions that are unit quaternions up to (E - 20 epsilon) / 13, E at most 1/10, every fraction of the segment, both proper flags and every rounding to nearest", "why_tests_cant": "the error is carried on from call to call and the two ends are rounded apart; a test runs one history and looks at finitely many points of the segment", "anchors": ["src/wfmath/segment.h: Segment::shift, rotatePoint, toParentCoords, toLocalCoords", "src/wfmath/segment.cpp: Segment<3>::rotatePoint, toParentCoords, toLocalCoords", "src/wfmath/ball.h: Ball::shift, rotatePoint, toParentCoords, toLocalCoords", "src/wfmath/intersect.h: Intersect(Segment, Ball), Contains(Ball, Segment), Intersect(Segment, Point)"]}
{"id": "C161", "title": "Plane polygons and balls after any history of motions in floating point", "statement": "A plane polygon and a ball go through the same history of calls in double precision arithmetic: any number of shift, rotatePoint, toParentCoords and toLocalCoords in any order. As long as all vectors, pivots and frame origins, and the corners and the centre after each call, stay within M of the origin, let d be the drift N (E + 5 2^-53) 2M after N calls. Intersect(polygon, ball) and Contains(polygon, ball) after the history answer as the sets at the start do, up to 3 d and the margins of the tests: a polygon with a point in a ball smaller by the margins is found to meet the ball, a polygon found to meet it had a point in a ball larger by the margins, and the same holds for a ball inside the polygon. Contains(ball, polygon) answers as at the start up to 2 d and the factor 1 + epsilon. The directions that compare with a larger ball leave out polygons with a moved corner so near to the moved centre that SquaredDistance is set to 0.", "quantifier": "all lists of corners, all balls, all finite histories of calls of any length, all matrices that are rotations or reflections up to E, E at most 1/4, all radii that leave room for the margins, both proper flags and every rounding to nearest", "why_tests_cant": "the corners and the centre are rounded apart in every call and the errors are carried on; the answer depends on every point of the polygon, and a test sees one history of one shape", "anchors": ["src/wfmath/polygon.cpp: Polygon<2>::shift, rotatePoint, toParentCoords, toLocalCoords", "src/wfmath/ball.h: Ball::shift, rotatePoint, toParentCoords, toLocalCoords", "src/wfmath/polygon_intersect.cpp: Intersect(Polygon<2>, Ball<2>), Contains(Polygon<2>, Ball<2>), Contains(Ball<2>, Polygon<2>)"]}
{"id": "C162", "title": "Barycenters and polygon centres after any history of motions in floating point", "statement": "A list of k points goes through a history of N calls in double precision arithmetic: shift and every form of turning and changing coordinates, in any order. Barycenter of the moved points is where the Barycenter of the points at the start comes when it goes through the same calls, up to a distance of N 4 (2E + 2^-51) M + n k 2^-51 M in n dimensions, as long as all vectors, pivots, frame origins, points and the barycenter stay within M of the origin. getCenter of a plane polygon that goes through such a history is, in the same way, the moved getCenter up to N 4 (E + 5 2^-53) M + k 2^-50 M.", "quantifier": "all dimensions below 2^52, all non-empty lists of at most 2^52 points, all finite histories of any length, all matrices that are rotations or reflections up to E, E at most 1/10 (1/4 for plane polygons), and every rounding to nearest", "why_tests_cant": "each point is rounded on its own in every call, the sum of the barycenter is rounded after every point, and the errors of all calls are carried on; a test sees one list and one history", "anchors": ["src/wfmath/point_funcs.h: Barycenter", "src/wfmath/polygon.h: Polygon<2>::getCenter", "src/wfmath/polygon.cpp: Polygon<2>::shift, rotatePoint, toParentCoords, toLocalCoords", "src/wfmath/point.h: Point::shift, rotate, toParentCoords, toLocalCoords"]}
{"id": "C163", "title": "Bounding spheres moved together with their points in floating point", "statement": "A program computes the bounding sphere of a list of points once and then moves the sphere and the points through the same history of N calls in double precision arithmetic: shift and every form of turning and changing coordinates. As long as all vectors, pivots, frame origins, points and the centre stay within M of the origin, let d be N 4 (2E + 2^-51) M. The moved sphere has the radius it had. For BoundingSphere, run with its assertions, every moved point is within (1 + epsilon) radius + d of the moved centre, some moved point is at least (1 - epsilon) radius - d away from it, and a ball about that centre moved through the history whose radius is at least (1 + epsilon) radius + d contains all the moved points for Intersect(ball, point). For BoundingSphereSloppy of k points in two and three dimensions, every moved point is within radius + (k + 1) 2^-44 M + d of the moved centre.", "quantifier": "all lists of points in up to three dimensions (fewer than 2^40 points with double coordinates for BoundingSphereSloppy), all finite histories of any length, all matrices that are rotations or reflections up to E, E at most 1/10, and every rounding to nearest", "why_tests_cant": "the points and the centre are rounded apart in every call, the sphere has its own rounding, and the errors are carried on; a test sees one list and one history", "anchors": ["src/wfmath/ball_funcs.h: BoundingSphere, BoundingSphereSloppy", "src/wfmath/ball.h: Ball::shift, rotatePoint, toParentCoords, toLocalCoords", "src/wfmath/point.h: Point::shift, rotate, toParentCoords, toLocalCoords"]}
{"id": "C164", "title": "Histories of motions taken back in floating point", "statement": "A point goes through a history of N calls in double precision arithmetic (shift, rotatePoint, toParentCoords and toLocalCoords, by matrices or, in space, quaternions) and then through the calls that take them back, the last one first: shift(-v) for shift(v), a rotation by inverse() about the same point for a rotation, toLocalCoords for toParentCoords and the reverse. As long as all vectors, pivots, frame origins and the point after each call stay within M of the origin, it comes back to where it was up to N 4 (2E + 2^-51) M. A ball comes back with exactly its radius and its centre within that distance, a segment with both ends within it. For rotations about one point the bound is N 12 (2E + 2^-51) D for a point and a pivot within D, and no assumption about the moved points is needed.", "quantifier": "all dimensions below 2^52, all points, balls and segments, all finite histories of any length, all matrices that are rotations or reflections up to E and quaternions that are unit quaternions up to (E - 20 epsilon) / 13, E at most 1/10, and every rounding to nearest", "why_tests_cant": "each call rounds, so no call is taken back exactly, and the errors of all calls are carried through all later ones; a test sees one history", "anchors": ["src/wfmath/point.h: Point::shift, rotatePoint, toParentCoords, toLocalCoords", "src/wfmath/point.cpp: Point<3>::rotate, toParentCoords, toLocalCoords", "src/wfmath/rotmatrix_funcs.h: RotMatrix::inverse", "src/wfmath/quaternion.cpp: Quaternion::inverse", "src/wfmath/vector_funcs.h: operator-", "src/wfmath/ball.h: Ball::shift, rotatePoint, toParentCoords, toLocalCoords", "src/wfmath/segment.h: Segment::shift, rotatePoint, toParentCoords, toLocalCoords"]}
{"id": "C165", "title": "Histories of motions of plane polygons taken back in floating point", "statement": "A plane polygon goes through a history of N calls in double precision arithmetic (shift, rotatePoint, toParentCoords, toLocalCoords) and then through the calls that take them back, the last one first. As long as all vectors, pivots and frame origins, and the corners after each call, stay within M of the origin, it has its corners in the same order, each within d = N 4 (2E + 2^-51) M of where it was. A point that is farther than d from every side of the polygon at the start is inside the polygon at the end exactly when it was inside it at the start.", "quantifier": "all lists of corners, also of polygons that cross themselves, all finite histories of any length, all points of the plane, all matrices that are rotations or reflections up to E, E at most 1/10, and every rounding to nearest", "why_tests_cant": "each call rounds each corner on its own, so no call is taken back exactly, and the errors are carried through all later calls; a test sees one history of one polygon and a few points", "anchors": ["src/wfmath/polygon.cpp: Polygon<2>::shift, rotatePoint, toParentCoords, toLocalCoords", "src/wfmath/rotmatrix_funcs.h: RotMatrix::inverse", "src/wfmath/vector_funcs.h: operator-"]}
{"id": "C166", "title": "Rotated boxes after any history of motions in floating point", "statement": "A rotated box goes through a history of N calls in double precision arithmetic: shift, rotatePoint, toParentCoords with matrices or quaternions, toLocalCoords with quaternions. There is one exact motion, a rotation or reflection S followed by a shift t, that depends on the history alone, such that every box keeps its sizes, its orientation stands for the one at the start followed by S up to G = (1+A)(1+4E)^N - 1 + 2n(n+1)2^-52, and every corner that getCorner returns and the centre that getCenter returns lie within N 2 (2E + 2^-51) M + (G + 2^-51) |size| + 2^-53 M of the exact corner or centre at the start carried along by the motion. toLocalCoords with a matrix is left out because it is wrong for rotated boxes (C147_false).", "quantifier": "all rotated boxes of any dimension whose orientation is a rotation or reflection up to A, all finite histories whose data and whose box corner stay within M of the origin, all matrices and quaternions that are rotations up to E, E at most 1/10, with G at most 1/4, orientations that are not renormalised on the way (age below 20), and every rounding to nearest", "why_tests_cant": "the corner is moved and the orientation is multiplied separately, each with its own roundings, so the box could come apart from its corner after many calls; a test sees a few histories", "anchors": ["src/wfmath/rotbox.h: shift, rotatePoint, toParentCoords, getCorner, getCenter", "src/wfmath/rotbox.cpp: rotatePoint, toParentCoords, toLocalCoords", "src/wfmath/rotmatrix_funcs.h: Prod, RotMatrix::rotate"]}
