{
 "claims": [
  {
   "property": "C01",
   "status": "proved",
   "theorems": [
    "WFMath.C01_unsigned_numeral",
    "WFMath.C01_unsigned_injective",
    "WFMath.C01_buffer_bound_sharp"
   ],
   "note": ""
  },
  {
   "property": "C02",
   "status": "proved",
   "theorems": [
    "WFMath.C02_signed_numeral",
    "WFMath.C02_signed_injective"
   ],
   "note": ""
  },
  {
   "property": "C03",
   "status": "proved",
   "theorems": [
    "WFMath.C03_normalised_history",
    "WFMath.C03_constructor",
    "WFMath.C03_full_time"
   ],
   "note": ""
  },
  {
   "property": "C04",
   "status": "proved",
   "theorems": [
    "WFMath.C04_history_exact",
    "WFMath.C04_operations_exact",
    "WFMath.C04_add_then_difference",
    "WFMath.C04_sub_then_add",
    "WFMath.C04_difference_then_add",
    "WFMath.C04_add_comm_assoc"
   ],
   "note": ""
  },
  {
   "property": "C05",
   "status": "proved",
   "theorems": [
    "WFMath.C05_diff_order",
    "WFMath.C05_stamp_order",
    "WFMath.C05_strict_total",
    "WFMath.C05_add_monotone"
   ],
   "note": ""
  },
  {
   "property": "C06",
   "status": "partial",
   "theorems": [
    "WFMath.C06_millis_roundtrip_false",
    "WFMath.C06_millis_roundtrip_partial",
    "WFMath.C06_millis_valid"
   ],
   "note": "The full statement is false of the code (C06_millis_roundtrip_false); the partial theorem gives the exact set of milliseconds for which it holds."
  },
  {
   "property": "C07",
   "status": "proved",
   "theorems": [
    "WFMath.C07_valid_iff",
    "WFMath.C07_expression_valid"
   ],
   "note": ""
  },
  {
   "property": "C08",
   "status": "proved",
   "theorems": [
    "WFMath.C08_mt19937",
    "WFMath.C08_spec_determines",
    "WFMath.C08_mt19937_array",
    "WFMath.C08_array_spec_inhabited"
   ],
   "note": ""
  },
  {
   "property": "C09",
   "status": "proved",
   "theorems": [
    "WFMath.C09_no_out_of_bounds",
    "WFMath.C09_empty_array_reads_outside"
   ],
   "note": ""
  },
  {
   "property": "C10",
   "status": "proved",
   "theorems": [
    "WFMath.C10_save_load"
   ],
   "note": ""
  },
  {
   "property": "C11",
   "status": "proved",
   "theorems": [
    "WFMath.C11_in_range",
    "WFMath.C11_uses_draws",
    "WFMath.C11_unbiased_word",
    "WFMath.C11_unbiased_stream",
    "WFMath.C11_mask"
   ],
   "note": ""
  },
  {
   "property": "C12",
   "status": "proved",
   "theorems": [
    "WFMath.C12_rand_interval"
   ],
   "note": ""
  },
  {
   "property": "C13",
   "status": "proved",
   "theorems": [
    "WFMath.C13_permutation",
    "WFMath.C13_fair",
    "WFMath.C13_unfair_above_uint32"
   ],
   "note": ""
  },
  {
   "property": "C14",
   "status": "proved",
   "theorems": [
    "WFMath.C14_refl",
    "WFMath.C14_symm",
    "WFMath.C14_sound",
    "WFMath.C14_complete",
    "WFMath.C14_scale",
    "WFMath.C14_zero"
   ],
   "note": ""
  },
  {
   "property": "C15",
   "status": "proved",
   "theorems": [
    "WFMath.C15_clamp_mem",
    "WFMath.C15_clamp_id",
    "WFMath.C15_clamp_nearest",
    "WFMath.C15_minmax"
   ],
   "note": ""
  },
  {
   "property": "C16",
   "status": "proved",
   "theorems": [
    "WFMath.C16_valid_conj"
   ],
   "note": ""
  },
  {
   "property": "C17",
   "status": "proved",
   "theorems": [
    "WFMath.C17_components",
    "WFMath.C17_laws",
    "WFMath.C17_div_mul"
   ],
   "note": ""
  },
  {
   "property": "C18",
   "status": "proved",
   "theorems": [
    "WFMath.C18_dot",
    "WFMath.C18_exact",
    "WFMath.C18_cut",
    "WFMath.C18_symm",
    "WFMath.C18_zero",
    "WFMath.C18_maxAbs",
    "WFMath.C18_tiny"
   ],
   "note": ""
  },
  {
   "property": "C19",
   "status": "partial",
   "theorems": [
    "WFMath.C19_dim1",
    "WFMath.C19_dim2",
    "WFMath.C19_dim3_partial",
    "WFMath.C19_dim3_gap",
    "WFMath.C19_false"
   ],
   "note": "In 3D the documented maximum factor is a float literal rounded just below the true supremum, so the full statement fails there (C19_false, C19_dim3_gap); 1D and 2D are proved in full, 3D with the constant 1.14593472."
  },
  {
   "property": "C20",
   "status": "partial",
   "theorems": [
    "WFMath.C20_length",
    "WFMath.C20_direction",
    "WFMath.C20_sloppy_dim2",
    "WFMath.C20_sloppy_dim3_partial",
    "WFMath.C20_false",
    "WFMath.C20_sloppy_succeeds"
   ],
   "note": "normalize() proved in full, sloppyNorm in two dimensions too; in three dimensions the lower bound holds with the constant 1.14593472 (C20_sloppy_dim3_partial) and fails with sloppyMagMax() itself (C20_false), as in C19."
  },
  {
   "property": "C21",
   "status": "proved",
   "theorems": [
    "WFMath.C21_components",
    "WFMath.C21_antisymm",
    "WFMath.C21_orthogonal",
    "WFMath.C21_length"
   ],
   "note": ""
  },
  {
   "property": "C22",
   "status": "partial",
   "theorems": [
    "WFMath.C22_false",
    "WFMath.C22_partial"
   ],
   "note": "False of the code when the result is negative (missing absolute value before the cut-off): C22_false. C22_partial gives the exact behaviour."
  },
  {
   "property": "C23",
   "status": "partial",
   "theorems": [
    "WFMath.C23_range",
    "WFMath.C23_symm",
    "WFMath.C23_cos",
    "WFMath.C23_cos_error",
    "WFMath.C23_parallel_partial",
    "WFMath.C23_false"
   ],
   "note": "Range, symmetry and cosine proved in full; 'parallel vectors have angle 0' fails for tiny vectors (C23_false)."
  },
  {
   "property": "C24",
   "status": "proved",
   "theorems": [
    "WFMath.C24_components",
    "WFMath.C24_defined",
    "WFMath.C24_matrix",
    "WFMath.C24_length",
    "WFMath.C24_additive",
    "WFMath.C24_inverse",
    "WFMath.C24_plane"
   ],
   "note": ""
  },
  {
   "property": "C25",
   "status": "proved",
   "theorems": [
    "WFMath.C25_rodrigues",
    "WFMath.C25_defined",
    "WFMath.C25_exact",
    "WFMath.C25_fixes_axis",
    "WFMath.C25_error",
    "WFMath.C25_quaternion",
    "WFMath.C25_mag",
    "WFMath.C25_agree_quaternion",
    "WFMath.C25_matrix",
    "WFMath.C25_matrix_defined",
    "WFMath.C25_agree_matrix",
    "WFMath.C25_coordinate_axes"
   ],
   "note": ""
  },
  {
   "property": "C26",
   "status": "proved",
   "theorems": [
    "WFMath.C26_axis",
    "WFMath.C26_all",
    "WFMath.C26_dir_length",
    "WFMath.C26_dir_fixes",
    "WFMath.C26_dir_negates",
    "WFMath.C26_dir_involution",
    "WFMath.C26_dir_involution_error"
   ],
   "note": ""
  },
  {
   "property": "C27",
   "status": "partial",
   "theorems": [
    "WFMath.C27_atan2",
    "WFMath.C27_polar_partial",
    "WFMath.C27_polar3_partial",
    "WFMath.C27_false",
    "WFMath.C27_diagonal_partial",
    "WFMath.C27_spherical_partial",
    "WFMath.C27_spherical_false",
    "WFMath.C27_polar_back_partial",
    "WFMath.C27_point_polar_partial",
    "WFMath.C27_point_spherical_partial",
    "WFMath.C27_point_false"
   ],
   "note": "The code swaps the atan2 arguments: C27_false, C27_spherical_false. The partial theorems say exactly what a round trip returns."
  },
  {
   "property": "C28",
   "status": "proved",
   "theorems": [
    "WFMath.C28_point_iff",
    "WFMath.C28_point_laws",
    "WFMath.C28_vector_iff",
    "WFMath.C28_scale",
    "WFMath.C28_vector_laws"
   ],
   "note": ""
  },
  {
   "property": "C29",
   "status": "proved",
   "theorems": [
    "WFMath.C29_affine",
    "WFMath.C29_difference",
    "WFMath.C29_valid",
    "WFMath.C29_convert"
   ],
   "note": ""
  },
  {
   "property": "C30",
   "status": "proved",
   "theorems": [
    "WFMath.C30_midpoint",
    "WFMath.C30_mean",
    "WFMath.C30_empty",
    "WFMath.C30_in_box",
    "WFMath.C30_order",
    "WFMath.C30_translate",
    "WFMath.C30_weighted",
    "WFMath.C30_weighted_refused",
    "WFMath.C30_equal_weights",
    "WFMath.C30_proportional"
   ],
   "note": ""
  },
  {
   "property": "C31",
   "status": "proved",
   "theorems": [
    "WFMath.C31_matrix",
    "WFMath.C31_matrix_distance",
    "WFMath.C31_quaternion",
    "WFMath.C31_quaternion_error",
    "WFMath.C31_quaternion_distance"
   ],
   "note": ""
  },
  {
   "property": "C32",
   "status": "proved",
   "theorems": [
    "WFMath.C32_sqDist",
    "WFMath.C32_error",
    "WFMath.C32_dist"
   ],
   "note": ""
  },
  {
   "property": "C33",
   "status": "partial",
   "theorems": [
    "WFMath.C33_exact_partial",
    "WFMath.C33_drift_partial",
    "WFMath.C33_false"
   ],
   "note": "False of the code: a product whose inner product is flushed to zero is not exactly unit (C33_false). Exact when no cut-off fires (C33_exact_partial); otherwise the drift per operation is bounded (C33_drift_partial)."
  },
  {
   "property": "C34",
   "status": "proved",
   "theorems": [
    "WFMath.C34_mul",
    "WFMath.C34_mul_error",
    "WFMath.C34_div",
    "WFMath.C34_div_error",
    "WFMath.C34_identity",
    "WFMath.C34_assoc",
    "WFMath.C34_assoc_error"
   ],
   "note": ""
  },
  {
   "property": "C35",
   "status": "proved",
   "theorems": [
    "WFMath.C35_dot",
    "WFMath.C35_cross",
    "WFMath.C35_inverse",
    "WFMath.C35_dot_error",
    "WFMath.C35_cross_error",
    "WFMath.C35_inverse_error"
   ],
   "note": ""
  },
  {
   "property": "C36",
   "status": "partial",
   "theorems": [
    "WFMath.C36_matrix",
    "WFMath.C36_same_rotation",
    "WFMath.C36_roundtrip_partial",
    "WFMath.C36_wrong",
    "WFMath.C36_false",
    "WFMath.C36_assert",
    "WFMath.C36_back_partial"
   ],
   "note": "The matrix direction holds for every unit quaternion (C36_matrix, C36_same_rotation); the way back is right exactly for positive trace, and for non-positive trace a sign error gives a different rotation (C36_false, C36_wrong)."
  },
  {
   "property": "C37",
   "status": "proved",
   "theorems": [
    "WFMath.C37_iff",
    "WFMath.C37_laws"
   ],
   "note": ""
  },
  {
   "property": "C38",
   "status": "proved",
   "theorems": [
    "WFMath.C38_direction",
    "WFMath.C38_rotate",
    "WFMath.C38_outcome",
    "WFMath.C38_fallback"
   ],
   "note": ""
  },
  {
   "property": "C39",
   "status": "proved",
   "theorems": [
    "WFMath.C39_step",
    "WFMath.C39_limit"
   ],
   "note": ""
  },
  {
   "property": "C40",
   "status": "proved",
   "theorems": [
    "WFMath.C40_invariant"
   ],
   "note": ""
  },
  {
   "property": "C41",
   "status": "proved",
   "theorems": [
    "WFMath.C41_compose",
    "WFMath.C41_products",
    "WFMath.C41_inverse",
    "WFMath.C41_sides",
    "WFMath.C41_isometry",
    "WFMath.C41_accessors"
   ],
   "note": ""
  },
  {
   "property": "C42",
   "status": "proved",
   "theorems": [
    "WFMath.C42_axes",
    "WFMath.C42_plane",
    "WFMath.C42_plane_defined",
    "WFMath.C42_vector",
    "WFMath.C42_vector_defined"
   ],
   "note": ""
  },
  {
   "property": "C43",
   "status": "partial",
   "theorems": [
    "WFMath.C43_partial",
    "WFMath.C43_opposite",
    "WFMath.C43_defined",
    "WFMath.C43_false"
   ],
   "note": "Proved for all non-antiparallel pairs (C43_partial) and exactly antiparallel ones with the fallback (C43_opposite); the near-antiparallel branch has the wrong sign (C43_false)."
  },
  {
   "property": "C44",
   "status": "proved",
   "theorems": [
    "WFMath.C44_axis",
    "WFMath.C44_direction",
    "WFMath.C44_direction_defined",
    "WFMath.C44_all"
   ],
   "note": ""
  },
  {
   "property": "C45",
   "status": "proved",
   "theorems": [
    "WFMath.C45_fixed",
    "WFMath.C45_step",
    "WFMath.C45_error",
    "WFMath.C45_contract",
    "WFMath.C45_global"
   ],
   "note": ""
  },
  {
   "property": "C46",
   "status": "proved",
   "theorems": [
    "WFMath.C46_orthogonal",
    "WFMath.C46_parity_limits",
    "WFMath.C46_refuses",
    "WFMath.C46_accepts",
    "WFMath.C46_terminates",
    "WFMath.C46_parity",
    "WFMath.C46_rotation"
   ],
   "note": ""
  },
  {
   "property": "C47",
   "status": "partial",
   "theorems": [
    "WFMath.C47_inverse",
    "WFMath.C47_solve",
    "WFMath.C47_singular",
    "WFMath.C47_failure",
    "WFMath.C47_inverse_partial",
    "WFMath.C47_determinant_partial",
    "WFMath.C47_false",
    "WFMath.C47_determinant_false"
   ],
   "note": "Successful inversions are exact (C47_inverse, C47_solve) and singular matrices are refused (C47_singular); invertible matrices with tiny pivots are refused too (C47_false) and the determinant helper is inexact when a pivot is flushed (C47_determinant_false)."
  },
  {
   "property": "C48",
   "status": "partial",
   "theorems": [
    "WFMath.C48_partial",
    "WFMath.C48_false"
   ],
   "note": "Proved for not_flip = true; false for not_flip = false (C48_false)."
  },
  {
   "property": "C49",
   "status": "partial",
   "theorems": [
    "WFMath.C49_partial",
    "WFMath.C49_ordered",
    "WFMath.C49_false"
   ],
   "note": "Corners and ordering proved; the box of two corners is marked valid even when a corner is not (C49_false)."
  },
  {
   "property": "C50",
   "status": "proved",
   "theorems": [
    "WFMath.C50_disjoint",
    "WFMath.C50_points"
   ],
   "note": ""
  },
  {
   "property": "C51",
   "status": "proved",
   "theorems": [
    "WFMath.C51_least",
    "WFMath.C51_laws"
   ],
   "note": ""
  },
  {
   "property": "C52",
   "status": "partial",
   "theorems": [
    "WFMath.C52_boxes",
    "WFMath.C52_boxes_order",
    "WFMath.C52_points",
    "WFMath.C52_points_order",
    "WFMath.C52_empty",
    "WFMath.C52_barycenter",
    "WFMath.C52_point",
    "WFMath.C52_segment",
    "WFMath.C52_segment_false",
    "WFMath.C52_corners",
    "WFMath.C52_polygon"
   ],
   "note": "Proved for lists of points and boxes and for all shapes, except that the bounding box of an invalid segment is valid (C52_segment_false, a consequence of C49_false)."
  },
  {
   "property": "C53",
   "status": "proved",
   "theorems": [
    "WFMath.C53_bits",
    "WFMath.C53_in_box",
    "WFMath.C53_vertices",
    "WFMath.C53_injective",
    "WFMath.C53_opposite",
    "WFMath.C53_center",
    "WFMath.C53_valid"
   ],
   "note": ""
  },
  {
   "property": "C54",
   "status": "partial",
   "theorems": [
    "WFMath.C54_point",
    "WFMath.C54_overlap",
    "WFMath.C54_overlap_proper",
    "WFMath.C54_overlap_solid",
    "WFMath.C54_contains",
    "WFMath.C54_symm",
    "WFMath.C54_contains_intersect",
    "WFMath.C54_trans_partial",
    "WFMath.C54_trans_false",
    "WFMath.C54_point_contains"
   ],
   "note": "All membership, overlap and inclusion decisions are characterised exactly; transitivity of the tolerant containment fails because tolerances add up (C54_trans_false), and holds with the doubled tolerance and for the proper test (C54_trans_partial)."
  },
  {
   "property": "C55",
   "status": "proved",
   "theorems": [
    "WFMath.C55_point",
    "WFMath.C55_box",
    "WFMath.C55_box_solid",
    "WFMath.C55_contains_box",
    "WFMath.C55_box_contains",
    "WFMath.C55_balls",
    "WFMath.C55_contains_ball",
    "WFMath.C55_point_contains"
   ],
   "note": ""
  },
  {
   "property": "C56",
   "status": "partial",
   "theorems": [
    "WFMath.C56_box_sloppy2",
    "WFMath.C56_box_sloppy3",
    "WFMath.C56_box_partial",
    "WFMath.C56_box_false",
    "WFMath.C56_segment_sloppy2",
    "WFMath.C56_segment_sloppy3",
    "WFMath.C56_segment_partial",
    "WFMath.C56_rotbox",
    "WFMath.C56_rotbox_sloppy_partial",
    "WFMath.C56_rotbox_false",
    "WFMath.C56_point"
   ],
   "note": "Sloppy spheres enclose boxes and segments in full; the exact sphere of a shape so small that its diagonal is flushed to zero does not (C56_box_false), nor does the sloppy sphere of a rotated box (C56_rotbox_false)."
  },
  {
   "property": "C57",
   "status": "proved",
   "theorems": [
    "WFMath.C57_dim2",
    "WFMath.C57_dim3",
    "WFMath.C57_empty",
    "WFMath.C57_polygon",
    "WFMath.C57_polygon_empty"
   ],
   "note": ""
  },
  {
   "property": "C58",
   "status": "partial",
   "theorems": [
    "WFMath.C58_unchecked_partial",
    "WFMath.C58_smallest_partial",
    "WFMath.C58_order_partial",
    "WFMath.C58_encloses",
    "WFMath.C58_false",
    "WFMath.C58_empty",
    "WFMath.C58_polygon_partial"
   ],
   "note": "Proved for every list whose points are nowhere nearly, but not exactly, in a flat through some of the others (relative threshold 10^-16, the code's own rejection threshold): the search ends, the assertions hold and the ball is the smallest (C58_smallest_partial, C58_unchecked_partial), whatever the order (C58_order_partial); likewise for polygons in space with exactly perpendicular axes (C58_polygon_partial). For all lists: a ball that is returned contains the points up to epsilon (C58_encloses). False for one point or equal points with assertions (C58_false), and the empty list is undefined behaviour (C58_empty). Missing: minimality for nearly degenerate points."
  },
  {
   "property": "C59",
   "status": "proved",
   "theorems": [
    "WFMath.C59_closed",
    "WFMath.C59_tolerance",
    "WFMath.C59_proper"
   ],
   "note": ""
  },
  {
   "property": "C60",
   "status": "partial",
   "theorems": [
    "WFMath.C60_rejects",
    "WFMath.C60_accepts_partial",
    "WFMath.C60_false"
   ],
   "note": "Everything outside the ball beyond tolerance is rejected (C60_rejects); acceptance is proved when the dot products are not flushed to zero (C60_accepts_partial); microscopic segments whose dot product is flushed are wrongly rejected (C60_false)."
  },
  {
   "property": "C61",
   "status": "partial",
   "theorems": [
    "WFMath.C61_accepts",
    "WFMath.C61_accepts_proper",
    "WFMath.C61_rejects_proper",
    "WFMath.C61_rejects_partial",
    "WFMath.C61_false"
   ],
   "note": "Every point of the segment is accepted (C61_accepts) and what the proper test accepts is within relative tolerance (C61_rejects_proper); the tolerant test compares the squared product of the distances with an absolute epsilon when the angle is right, so it accepts points far off a short segment (C61_false, C61_rejects_partial)."
  },
  {
   "property": "C62",
   "status": "partial",
   "theorems": [
    "WFMath.C62_lines_partial",
    "WFMath.C62_parallel_partial",
    "WFMath.C62_false"
   ],
   "note": "False of the code: for crossing segments the code tests that the crossing parameter lies outside the segment (C62_false). C62_lines_partial states what the crossing branch does decide, C62_parallel_partial proves the parallel branch."
  },
  {
   "property": "C63",
   "status": "proved",
   "theorems": [
    "WFMath.C63_box",
    "WFMath.C63_ball"
   ],
   "note": ""
  },
  {
   "property": "C64",
   "status": "proved",
   "theorems": [
    "WFMath.C64_point",
    "WFMath.C64_corners",
    "WFMath.C64_corner_member",
    "WFMath.C64_center",
    "WFMath.C64_point_contains"
   ],
   "note": ""
  },
  {
   "property": "C65",
   "status": "proved",
   "theorems": [
    "WFMath.C65_bounding_box"
   ],
   "note": ""
  },
  {
   "property": "C66",
   "status": "partial",
   "theorems": [
    "WFMath.C66_shared_any_partial",
    "WFMath.C66_shared_false",
    "WFMath.C66_plane",
    "WFMath.C66_shared",
    "WFMath.C66_reported_partial",
    "WFMath.C66_reported_any_partial",
    "WFMath.C66_proper_partial",
    "WFMath.C66_plane_rotated",
    "WFMath.C66_space_rotated_partial",
    "WFMath.C66_false"
   ],
   "note": "In the plane complete (C66_plane, C66_plane_rotated). In space: shared points are always reported when no inner product is cut off (C66_shared), and whatever the cut-off does when the boxes overlap deeply enough for their sizes (C66_shared_any_partial); boxes reported share a point up to epsilon over the sine of the smallest angle between edges (C66_reported_partial, and C66_reported_any_partial whatever the cut-off does); the proper test is exact without cut-off (C66_proper_partial). False in general in both directions: C66_false gives two solid boxes 3 apart that are reported, C66_shared_false a rod through a slab that is not."
  },
  {
   "property": "C67",
   "status": "proved",
   "theorems": [
    "WFMath.C67_axis_rotated",
    "WFMath.C67_rotated_axis",
    "WFMath.C67_rotated_rotated"
   ],
   "note": ""
  },
  {
   "property": "C68",
   "status": "partial",
   "theorems": [
    "WFMath.C68_polygon_quaternion_partial",
    "WFMath.C68_polygon_local_false",
    "WFMath.C68_segment",
    "WFMath.C68_segment_quaternion",
    "WFMath.C68_ball",
    "WFMath.C68_ball_quaternion",
    "WFMath.C68_corners",
    "WFMath.C68_rotbox_parent",
    "WFMath.C68_rotbox_box",
    "WFMath.C68_rotbox_partial",
    "WFMath.C68_false",
    "WFMath.C68_rotbox_quaternion_partial",
    "WFMath.C68_polygon",
    "WFMath.C68_polygon_false",
    "WFMath.C68_box"
   ],
   "note": "False for rotated boxes with matrices (C68_false: toLocalCoords multiplies by the rotation on the wrong side, so neither round trip restores the orientation) and for polygons with quaternions (C68_polygon_false: the first axis is rotated twice, the second not at all). Proved for segments, balls, plane polygons, polygons with matrices; rotated boxes with matrices only as far as the corner and size; rotated boxes with quaternions when no product is flushed to 0."
  },
  {
   "property": "C69",
   "status": "proved",
   "theorems": [
    "WFMath.C69_box",
    "WFMath.C69_box_shift",
    "WFMath.C69_ball",
    "WFMath.C69_segment",
    "WFMath.C69_segment_shift",
    "WFMath.C69_rotbox",
    "WFMath.C69_rotbox_shift",
    "WFMath.C69_corners",
    "WFMath.C69_corners_shift",
    "WFMath.C69_polygon",
    "WFMath.C69_polygon_center",
    "WFMath.C69_polygon_shift"
   ],
   "note": ""
  },
  {
   "property": "C70",
   "status": "partial",
   "theorems": [
    "WFMath.C70_ball_quaternion",
    "WFMath.C70_ball_fixed",
    "WFMath.C70_motion",
    "WFMath.C70_motion_quaternion",
    "WFMath.C70_segment",
    "WFMath.C70_segment_quaternion",
    "WFMath.C70_ball",
    "WFMath.C70_rotbox",
    "WFMath.C70_rotbox_quaternion_partial",
    "WFMath.C70_corners",
    "WFMath.C70_polygon",
    "WFMath.C70_polygon_total",
    "WFMath.C70_polygon_corner",
    "WFMath.C70_polygon_center",
    "WFMath.C70_polygon_quaternion_partial",
    "WFMath.C70_false",
    "WFMath.C70_segment_quaternion_center",
    "WFMath.C70_rotbox_quaternion_corner_partial",
    "WFMath.C70_polygon_quaternion_origin_partial",
    "WFMath.C70_center_false"
   ],
   "note": "False for polygons turned about a corner or the centre by a quaternion (C70_false: the shift is rotated in place before it is subtracted from itself). Proved for all other shapes and for polygons with matrices; rotated boxes and polygons turned about a point by a quaternion are exact when no product is flushed to 0."
  },
  {
   "property": "C71",
   "status": "proved",
   "theorems": [
    "WFMath.C71_edits",
    "WFMath.C71_empty",
    "WFMath.C71_equal",
    "WFMath.C71_valid"
   ],
   "note": ""
  },
  {
   "property": "C72",
   "status": "partial",
   "theorems": [
    "WFMath.C72_fail",
    "WFMath.C72_partial",
    "WFMath.C72_basis",
    "WFMath.C72_coplanar",
    "WFMath.C72_false"
   ],
   "note": "False as stated (C72_false): the tolerance applies to squared lengths, so a coplanar point within sqrt(tolerance) of the first axis is snapped onto it. Proved: for every history each corner is within 2\u03b5 + sqrt(tolerance+2\u03b5) times its distance from the first point, a failed addCorner changes nothing, the basis is unit and perpendicular; exact for coplanar points with tolerance 0."
  },
  {
   "property": "C73",
   "status": "partial",
   "theorems": [
    "WFMath.C73_remove_partial",
    "WFMath.C73_move_partial",
    "WFMath.C73_false",
    "WFMath.C73_moved_false"
   ],
   "note": "False as stated: with assertions compiled in, taking a corner off a triangle can abort (C73_false); in every build a planar polygon exists where removing one corner moves another by 1/8 (C73_moved_false). Proved: when the remaining corners are apart from, or equal to, the first of them (beyond the tolerance), each stays in place up to 3\u03b5 times its distance from that one; a failed moveCorner changes nothing."
  },
  {
   "property": "C74",
   "status": "proved",
   "theorems": [
    "WFMath.C74_moved",
    "WFMath.C74_moves",
    "WFMath.C74_exact",
    "WFMath.C74_even_odd",
    "WFMath.C74_renumber",
    "WFMath.C74_reverse",
    "WFMath.C74_walk",
    "WFMath.C74_region",
    "WFMath.C74_outside",
    "WFMath.C74_triangle"
   ],
   "note": ""
  },
  {
   "property": "C75",
   "status": "proved",
   "theorems": [
    "WFMath.C75_box",
    "WFMath.C75_rotbox",
    "WFMath.C75_ball",
    "WFMath.C75_ball_general",
    "WFMath.C75_box_space",
    "WFMath.C75_rotbox_space",
    "WFMath.C75_ball_space"
   ],
   "note": ""
  },
  {
   "property": "C76",
   "status": "proved",
   "theorems": [
    "WFMath.C76_vector",
    "WFMath.C76_point",
    "WFMath.C76_accepts",
    "WFMath.C76_rejects"
   ],
   "note": ""
  },
  {
   "property": "C77",
   "status": "partial",
   "theorems": [
    "WFMath.C77_box",
    "WFMath.C77_segment",
    "WFMath.C77_ball",
    "WFMath.C77_matrix",
    "WFMath.C77_matrix_general",
    "WFMath.C77_low_precision_false",
    "WFMath.C77_rotbox",
    "WFMath.C77_quaternion",
    "WFMath.C77_fromString_false",
    "WFMath.C77_polygon2",
    "WFMath.C77_polygon3_partial",
    "WFMath.C77_polygon3_false",
    "WFMath.C77_empty_false"
   ],
   "note": "Proved for AxisBox, Ball, Segment, Quaternion, Polygon<2> with any number of corners, and RotBox/RotMatrix whose printed numbers are orthogonal. False for Polygon<3> unless it has exactly three corners (C77_polygon3_false: one or two corners do not parse, four or more come back as three; C77_empty_false: the text of an empty polygon does not empty the variable). False for matrices on streams of precision 1 (C77_low_precision_false) and for FromString with fewer digits than 6, which ignores its precision argument (C77_fromString_false)."
  },
  {
   "property": "C78",
   "status": "partial",
   "theorems": [
    "WFMath.C78_vector",
    "WFMath.C78_point",
    "WFMath.C78_quaternion",
    "WFMath.C78_box",
    "WFMath.C78_ball",
    "WFMath.C78_polygon_partial",
    "WFMath.C78_line_partial",
    "WFMath.C78_append_false",
    "WFMath.C78_few_false",
    "WFMath.C78_rotbox_partial",
    "WFMath.C78_rotbox_false",
    "WFMath.C78_valid"
   ],
   "note": "Proved for Vector, Point, Quaternion, AxisBox and Ball; for Line and Polygon<2> only when read into an empty object with enough corners (C78_append_false, C78_few_false show the rest fails); for RotBox only with the identity orientation (C78_rotbox_false)."
  },
  {
   "property": "C79",
   "status": "partial",
   "theorems": [
    "WFMath.C79_vector",
    "WFMath.C79_throw_false",
    "WFMath.C79_quaternion",
    "WFMath.C79_box_corners",
    "WFMath.C79_box_origin",
    "WFMath.C79_box",
    "WFMath.C79_corner_false",
    "WFMath.C79_ball_false",
    "WFMath.C79_ball_radius_false",
    "WFMath.C79_ball_partial",
    "WFMath.C79_corners",
    "WFMath.C79_rotbox",
    "WFMath.C79_numbers"
   ],
   "note": "Proved for Vector, Point, Quaternion, AxisBox, Line, Polygon<2>, RotBox when fromAtlas returns normally. False for Ball (C79_ball_false, C79_ball_radius_false) and for the object left after an exception (C79_throw_false); C79_ball_partial is what holds for balls. Overflow of squares in Quaternion::fromAtlas is outside this model; it is in C146."
  },
  {
   "property": "C80",
   "status": "proved",
   "theorems": [
    "WFMath.Prob.C80_factorial_small",
    "WFMath.Prob.C80_logFactorial_small",
    "WFMath.Prob.C80_logFactorial",
    "WFMath.Prob.C80_factorial",
    "WFMath.Prob.C80_gaussian",
    "WFMath.Prob.C80_gaussian_density",
    "WFMath.Prob.C80_poisson"
   ],
   "note": ""
  },
  {
   "property": "C81",
   "status": "partial",
   "theorems": [
    "WFMath.Prob.C81_partial",
    "WFMath.Prob.C81_false"
   ],
   "note": "entries 3 and 9 of the table are wrong (C81_false)"
  },
  {
   "property": "C82",
   "status": "proved",
   "theorems": [
    "WFMath.Prob.C82_terminates",
    "WFMath.Prob.C82_rejects",
    "WFMath.Prob.C82_accuracy"
   ],
   "note": ""
  },
  {
   "property": "C83",
   "status": "partial",
   "theorems": [
    "WFMath.C83_false",
    "WFMath.C83_partial"
   ],
   "note": "Aliasing makes q *= q wrong (C83_false); C83_partial gives the quaternions for which it is right."
  },
  {
   "property": "C84",
   "status": "partial",
   "theorems": [
    "WFMath.C84_partial",
    "WFMath.C84_false"
   ],
   "note": "The matrix stands for the inverse rotation under rotate (C84_false); C84_partial states the relation that does hold."
  },
  {
   "property": "C85",
   "status": "partial",
   "theorems": [
    "WFMath.C85_false",
    "WFMath.C85_partial",
    "WFMath.C85_default"
   ],
   "note": "fromQuaternion marks the matrix of an invalid quaternion valid (C85_false); every other operation propagates invalidity (C85_partial)."
  },
  {
   "property": "C86",
   "status": "proved",
   "theorems": [
    "WFMath.C86_rotate"
   ],
   "note": ""
  },
  {
   "property": "C87",
   "status": "proved",
   "theorems": [
    "WFMath.C87_ball_box"
   ],
   "note": ""
  },
  {
   "property": "C88",
   "status": "proved",
   "theorems": [
    "WFMath.C88_segment",
    "WFMath.C88_segment_proper",
    "WFMath.C88_box",
    "WFMath.C88_box_proper",
    "WFMath.C88_ball",
    "WFMath.C88_ball_inside"
   ],
   "note": ""
  },
  {
   "property": "C89",
   "status": "proved",
   "theorems": [
    "WFMath.C89_ball",
    "WFMath.C89_contains_ball",
    "WFMath.C89_ball_contains",
    "WFMath.C89_segment",
    "WFMath.C89_contains_segment",
    "WFMath.C89_segment_contains"
   ],
   "note": ""
  },
  {
   "property": "C90",
   "status": "proved",
   "theorems": [
    "WFMath.C90_readable",
    "WFMath.C90_basis",
    "WFMath.C90_total"
   ],
   "note": ""
  },
  {
   "property": "C91",
   "status": "partial",
   "theorems": [
    "WFMath.C91_lists",
    "WFMath.C91_false",
    "WFMath.C91_box_partial"
   ],
   "note": "Proved for vectors and points, and for boxes and segments outside the stated texts; false for texts without the character the reader looks for (C91_false): the loop never ends because a failed extraction leaves the character unchanged."
  },
  {
   "property": "C92",
   "status": "partial",
   "theorems": [
    "WFMath.C92_parallel_multiple",
    "WFMath.C92_parallel_sound",
    "WFMath.C92_parallel_complete",
    "WFMath.C92_parallel_false",
    "WFMath.C92_perp_zero",
    "WFMath.C92_perp_sound",
    "WFMath.C92_perp_complete",
    "WFMath.C92_symmetric",
    "WFMath.C92_perp_false"
   ],
   "note": "Proved when the inner product is not cut off to 0. Independence of length is false: C92_parallel_false, C92_perp_false."
  },
  {
   "property": "C93",
   "status": "partial",
   "theorems": [
    "WFMath.C93_slanted_partial",
    "WFMath.C93_false"
   ],
   "note": "Proved for points on sides that are not horizontal, below the upper end. False on horizontal sides (C93_false)."
  },
  {
   "property": "C94",
   "status": "partial",
   "theorems": [
    "WFMath.Prob.C94_accuracy",
    "WFMath.Prob.C94_gamma",
    "WFMath.Prob.C94_returns",
    "WFMath.Prob.C94_total",
    "WFMath.Prob.C94_special",
    "WFMath.Prob.C94_false"
   ],
   "note": "the claim that LogGamma returns for every argument is false: C94_false exhibits an interval between 2 and 3 on which the assertion fails. Accuracy is proved wherever it returns, and that it returns for z >= 3, z <= -2 and wherever the logarithm is at least 0.02 in size"
  },
  {
   "property": "C95",
   "status": "partial",
   "theorems": [
    "WFMath.Prob.C95_poisson_low",
    "WFMath.Prob.C95_gaussian_mean",
    "WFMath.Prob.C95_gaussian_false",
    "WFMath.Prob.C95_gaussian_tail",
    "WFMath.Prob.C95_poisson_high",
    "WFMath.Prob.C95_poisson"
   ],
   "note": "PoissonConditional is proved for every mean and step (C95_poisson). GaussianConditional is proved at the mean and from sqrt 3 deviations on, on both sides (C95_gaussian_tail, positive deviation); between, it is wrong (C95_gaussian_false)"
  },
  {
   "property": "C96",
   "status": "proved",
   "theorems": [
    "WFMath.C96_iff",
    "WFMath.C96_invalid",
    "WFMath.C96_refl",
    "WFMath.C96_symm",
    "WFMath.C96_rotation",
    "WFMath.C96_coarse"
   ],
   "note": ""
  },
  {
   "property": "C97",
   "status": "proved",
   "theorems": [
    "WFMath.C97_accepts",
    "WFMath.C97_rejects",
    "WFMath.C97_answers",
    "WFMath.C97_contains",
    "WFMath.C97_contained"
   ],
   "note": ""
  },
  {
   "property": "C98",
   "status": "partial",
   "theorems": [
    "WFMath.C98_accepts_partial",
    "WFMath.C98_rejects",
    "WFMath.C98_exact_partial",
    "WFMath.C98_inside",
    "WFMath.C98_false",
    "WFMath.C98_rotbox_partial",
    "WFMath.C98_rotbox_inside"
   ],
   "note": "Proved: for every polygon and box that share a point the test accepts unless the polygon is inside the box (C98_accepts_partial), it never accepts a polygon that has no point near the box (C98_rejects), and it is exact when no side grazes the rim of the box (C98_exact_partial); the same for rotated boxes. False of the code in general: a polygon wholly inside the box is always said not to meet it (C98_inside, C98_false)."
  },
  {
   "property": "C99",
   "status": "partial",
   "theorems": [
    "WFMath.C99_exact_partial",
    "WFMath.C99_false",
    "WFMath.C99_rotbox_partial"
   ],
   "note": "Proved exact when no side of the polygon grazes the rim of the box (C99_exact_partial, C99_rotbox_partial). False of the code when a side lies on the rim (C99_false)."
  },
  {
   "property": "C100",
   "status": "partial",
   "theorems": [
    "WFMath.C100_end_partial",
    "WFMath.C100_answers",
    "WFMath.C100_false",
    "WFMath.C100_contains_partial",
    "WFMath.C100_contains_false",
    "WFMath.C100_in_segment"
   ],
   "note": "False of the code in general (C100_false, C100_contains_false), because it asks the faulty test of two segments. Proved: segments whose first end is in the polygon are found, when an answer is given, what the proper containment test implies, and Contains(segment, polygon)."
  },
  {
   "property": "C101",
   "status": "partial",
   "theorems": [
    "WFMath.C101_corner_partial",
    "WFMath.C101_false",
    "WFMath.C101_contains_partial",
    "WFMath.C101_contains_false"
   ],
   "note": "False of the code in general (C101_false, C101_contains_false), because it asks the faulty test of two segments. Proved: polygons are found when the first corner of one is in the other; the first corner of what the proper containment test accepts is inside."
  },
  {
   "property": "C102",
   "status": "proved",
   "theorems": [
    "WFMath.C102_point",
    "WFMath.C102_segment",
    "WFMath.C102_polygon"
   ],
   "note": ""
  },
  {
   "property": "C103",
   "status": "partial",
   "theorems": [
    "WFMath.C103_plane_partial",
    "WFMath.C103_off_plane",
    "WFMath.C103_near",
    "WFMath.C103_origin_false",
    "WFMath.C103_false"
   ],
   "note": "False of the code at the origin of space (C103_origin_false, C103_false). Proved for all other points of the plane, for points away from it, and that accepted points are near the inside of the polygon."
  },
  {
   "property": "C104",
   "status": "partial",
   "theorems": [
    "WFMath.C104_never_false",
    "WFMath.C104_rejects_partial",
    "WFMath.C104_false"
   ],
   "note": "False of the code: no polygon with a corner is ever accepted (C104_never_false, C104_false). Proved: polygons with a corner elsewhere are rejected."
  },
  {
   "property": "C105",
   "status": "proved",
   "theorems": [
    "WFMath.C105_accepts",
    "WFMath.C105_rejects",
    "WFMath.C105_contains"
   ],
   "note": ""
  },
  {
   "property": "C106",
   "status": "partial",
   "theorems": [
    "WFMath.C106_normal_partial",
    "WFMath.C106_space_partial",
    "WFMath.C106_flat",
    "WFMath.C106_contains",
    "WFMath.C106_false"
   ],
   "note": "Proved for segments with an end more than twice the tolerance from the plane (C106_space_partial; C106_normal_partial in any dimension when both ends are on one normal). False of the code for segments in the plane (C106_false), where the faulty plane test is used."
  },
  {
   "property": "C107",
   "status": "partial",
   "theorems": [
    "WFMath.C107_sound_partial",
    "WFMath.C107_false",
    "WFMath.C107_contains",
    "WFMath.C107_contains_false",
    "WFMath.C107_rotbox_partial",
    "WFMath.C107_rotbox_contains"
   ],
   "note": "Proved: what Intersect accepts has a common point up to the tolerance, boxes that are not flat are not contained. False of the code: boxes through the plane are missed, boxes above it make the call endless (C107_false), flat boxes in the polygon are rejected (C107_contains_false)."
  },
  {
   "property": "C108",
   "status": "partial",
   "theorems": [
    "WFMath.C108_axes_partial",
    "WFMath.C108_false"
   ],
   "note": "False of the code: the distance of the planes and the shift between the polygons is ignored (C108_axes_partial, C108_false)."
  },
  {
   "property": "C109",
   "status": "proved",
   "theorems": [
    "WFMath.C109_box",
    "WFMath.C109_ball",
    "WFMath.C109_segment",
    "WFMath.C109_corners",
    "WFMath.C109_polygon",
    "WFMath.C109_polygon_self",
    "WFMath.C109_rotbox"
   ],
   "note": ""
  },
  {
   "property": "C110",
   "status": "partial",
   "theorems": [
    "WFMath.C110_position_false",
    "WFMath.C110_oblique_partial",
    "WFMath.C110_perpendicular_false",
    "WFMath.C110_false",
    "WFMath.C110_line_partial",
    "WFMath.C110_lines",
    "WFMath.C110_line_first_partial",
    "WFMath.C110_empty",
    "WFMath.C110_single",
    "WFMath.C110_single_false"
   ],
   "note": "Proved for two polygons on one line; reduced to the plane tests otherwise. False of the code for planes at an angle, for perpendicular planes and for polygons that are a point (C110_false, C110_position_false, C110_perpendicular_false, C110_single_false)."
  },
  {
   "property": "C111",
   "status": "partial",
   "theorems": [
    "WFMath.C111_position_false",
    "WFMath.C111_oblique_partial",
    "WFMath.C111_false",
    "WFMath.C111_perpendicular",
    "WFMath.C111_empty",
    "WFMath.C111_single",
    "WFMath.C111_single_false"
   ],
   "note": "Proved for perpendicular planes and polygons without corners; false of the code for planes at an angle, for parallel planes and for polygons that are a point (C111_false, C111_position_false, C111_single_false)."
  },
  {
   "property": "C112",
   "status": "partial",
   "theorems": [
    "WFMath.C112_accepts",
    "WFMath.C112_rejects",
    "WFMath.C112_tolerant_false"
   ],
   "note": "Proved: acceptance by the tolerant test, and nearness of what the proper test accepts. The tolerant test inherits the false acceptances of C61; C112_tolerant_false shows a polygon accepted although it is 1/20000 away from the whole segment."
  },
  {
   "property": "C113",
   "status": "partial",
   "theorems": [
    "WFMath.C113_false",
    "WFMath.C113_running_partial"
   ],
   "note": "False of the code in general: renormalisation is done before the multiplication and forgets the age of the right operand, so the norm of the result of a history can be arbitrarily small (C113_false). Proved for running products with right operands of norm near 1 (C113_running_partial)."
  },
  {
   "property": "C114",
   "status": "proved",
   "theorems": [
    "WFMath.C114_equal",
    "WFMath.C114_equal_arrays",
    "WFMath.C114_box_proper",
    "WFMath.C114_box"
   ],
   "note": ""
  },
  {
   "property": "C115",
   "status": "proved",
   "theorems": [
    "WFMath.C115_rand",
    "WFMath.C115_rand_float",
    "WFMath.C115_rand_float_not_injective"
   ],
   "note": ""
  },
  {
   "property": "C116",
   "status": "proved",
   "theorems": [
    "WFMath.C116_back",
    "WFMath.C116_length",
    "WFMath.C116_normalize",
    "WFMath.C116_distance",
    "WFMath.C116_move"
   ],
   "note": ""
  },
  {
   "property": "C117",
   "status": "proved",
   "theorems": [
    "WFMath.C117_vector",
    "WFMath.C117_products"
   ],
   "note": ""
  },
  {
   "property": "C118",
   "status": "partial",
   "theorems": [
    "WFMath.C118_dot",
    "WFMath.C118_perpendicular",
    "WFMath.C118_perpendicular_false",
    "WFMath.C118_cross"
   ],
   "note": "Unrestricted, perpendicular vectors of doubles can have a computed inner product of -1 (C118_perpendicular_false); the bound of 2 on the components in C118_perpendicular is part of the property as stated."
  },
  {
   "property": "C119",
   "status": "proved",
   "theorems": [
    "WFMath.C119_point",
    "WFMath.C119_box",
    "WFMath.C119_contains_box",
    "WFMath.C119_box_contains",
    "WFMath.C119_balls",
    "WFMath.C119_contains_ball"
   ],
   "note": ""
  },
  {
   "property": "C120",
   "status": "proved",
   "theorems": [
    "WFMath.C120_midpoint",
    "WFMath.C120_center",
    "WFMath.C120_between",
    "WFMath.C120_shift"
   ],
   "note": ""
  },
  {
   "property": "C121",
   "status": "partial",
   "theorems": [
    "WFMath.C121_ball_box",
    "WFMath.C121_sphere_partial",
    "WFMath.C121_sphere_contains",
    "WFMath.C121_false"
   ],
   "note": "Proved for the bounding box of a ball, for the reach of bounding spheres and, for boxes not far from the origin, that the test finds the box in its sphere. False for boxes far from the origin compared with their size (C121_false)."
  },
  {
   "property": "C122",
   "status": "proved",
   "theorems": [
    "WFMath.C122_unit",
    "WFMath.C122_product",
    "WFMath.C122_running"
   ],
   "note": ""
  },
  {
   "property": "C123",
   "status": "proved",
   "theorems": [
    "WFMath.C123_rotate",
    "WFMath.C123_isometry",
    "WFMath.C123_compose"
   ],
   "note": ""
  },
  {
   "property": "C124",
   "status": "proved",
   "theorems": [
    "WFMath.C124_vector",
    "WFMath.C124_product",
    "WFMath.C124_chain"
   ],
   "note": ""
  },
  {
   "property": "C125",
   "status": "proved",
   "theorems": [
    "WFMath.C125_matrix",
    "WFMath.C125_quaternion",
    "WFMath.C125_about",
    "WFMath.C125_about_quaternion"
   ],
   "note": ""
  },
  {
   "property": "C126",
   "status": "proved",
   "theorems": [
    "WFMath.C126_mean",
    "WFMath.C126_single",
    "WFMath.C126_weighted",
    "WFMath.C126_false"
   ],
   "note": ""
  },
  {
   "property": "C127",
   "status": "proved",
   "theorems": [
    "WFMath.C127_seeds",
    "WFMath.C127_window",
    "WFMath.C127_alive",
    "WFMath.C127_low_bits"
   ],
   "note": ""
  },
  {
   "property": "C128",
   "status": "partial",
   "theorems": [
    "WFMath.C128_seed",
    "WFMath.C128_works",
    "WFMath.C128_changes",
    "WFMath.C128_false"
   ],
   "note": "C128_false refutes the code's comment that consecutive time-based seeds always change; what holds is C128_changes."
  },
  {
   "property": "C129",
   "status": "partial",
   "theorems": [
    "WFMath.C129_length",
    "WFMath.C129_dim2_partial",
    "WFMath.C129_dim3_partial",
    "WFMath.C129_box",
    "WFMath.C129_segment",
    "WFMath.C129_false"
   ],
   "note": "Proved for programs compiled without assertions; with assertions BoundingSphereSloppy can abort (C129_false), and the theorem is about the lists for which it does not. Lists of fewer than 2^40 points."
  },
  {
   "property": "C130",
   "status": "proved",
   "theorems": [
    "WFMath.C130_plane",
    "WFMath.C130_vector",
    "WFMath.C130_axis",
    "WFMath.C130_length",
    "WFMath.C130_index",
    "WFMath.C130_matrix",
    "WFMath.C130_agree",
    "WFMath.C130_rotate"
   ],
   "note": ""
  },
  {
   "property": "C131",
   "status": "partial",
   "theorems": [
    "WFMath.C131_convert_partial",
    "WFMath.C131_wrong",
    "WFMath.C131_roundtrip_partial",
    "WFMath.C131_rotate_partial",
    "WFMath.C131_false",
    "WFMath.C131_young",
    "WFMath.C131_old_partial"
   ],
   "note": "Proved for rotations by less than 120 degrees; for larger ones the sign of a component is reversed (C131_wrong, C131_false), as in exact arithmetic (C36_wrong). For mirrors of age 20 and more, which are renormalised on the way, C131_old_partial asks for leading minors of at least 1/64."
  },
  {
   "property": "C132",
   "status": "proved",
   "theorems": [
    "WFMath.C132_vectors",
    "WFMath.C132_points",
    "WFMath.C132_shapes",
    "WFMath.C132_rotations",
    "WFMath.C132_rotated_boxes",
    "WFMath.C132_built"
   ],
   "note": ""
  },
  {
   "property": "C133",
   "status": "proved",
   "theorems": [
    "WFMath.C133_periodic",
    "WFMath.C133_seeded",
    "WFMath.C133_first"
   ],
   "note": ""
  },
  {
   "property": "C134",
   "status": "proved",
   "theorems": [
    "WFMath.C134_box_backward",
    "WFMath.C134_box",
    "WFMath.C134_ball_sound",
    "WFMath.C134_ball_complete",
    "WFMath.C134_in_box",
    "WFMath.C134_in_ball",
    "WFMath.C134_holds",
    "WFMath.C134_holds_near",
    "WFMath.C134_point_on",
    "WFMath.C134_point_near",
    "WFMath.C134_point_near_tolerant"
   ],
   "note": ""
  },
  {
   "property": "C135",
   "status": "proved",
   "theorems": [
    "WFMath.C135_point",
    "WFMath.C135_corner",
    "WFMath.C135_bounding_box",
    "WFMath.C135_bounding_sphere",
    "WFMath.C135_in_box",
    "WFMath.C135_contains_box",
    "WFMath.C135_plane",
    "WFMath.C135_segment",
    "WFMath.C135_contains_segment",
    "WFMath.C135_ball",
    "WFMath.C135_ball_contains",
    "WFMath.C135_contains_ball",
    "WFMath.C135_rotate",
    "WFMath.C135_contains_rotated",
    "WFMath.C135_plane_rotated",
    "WFMath.C135_space",
    "WFMath.C135_space_rotated"
   ],
   "note": ""
  },
  {
   "property": "C136",
   "status": "proved",
   "theorems": [
    "WFMath.C136_point",
    "WFMath.C136_side",
    "WFMath.C136_side_false",
    "WFMath.C136_box",
    "WFMath.C136_in_box",
    "WFMath.C136_in_point",
    "WFMath.C136_in_ball",
    "WFMath.C136_ball",
    "WFMath.C136_ball_converse"
   ],
   "note": ""
  },
  {
   "property": "C137",
   "status": "partial",
   "theorems": [
    "WFMath.C137_drift_plane_partial",
    "WFMath.C137_drift_space_partial",
    "WFMath.C137_plane_partial",
    "WFMath.C137_space_partial",
    "WFMath.C137_false",
    "WFMath.C137_product_false"
   ],
   "note": "the property without a condition on the leading minors is refuted by C137_false and C137_product_false; proved: C137_plane_partial, C137_space_partial, C137_drift_plane_partial and C137_drift_space_partial, with rounding bounds that grow as the minors get small"
  },
  {
   "property": "C138",
   "status": "partial",
   "theorems": [
    "WFMath.C138_accepts",
    "WFMath.C138_refuses",
    "WFMath.C138_orthogonal",
    "WFMath.C138_parity_plane",
    "WFMath.C138_parity_space_partial",
    "WFMath.C138_false",
    "WFMath.C138_improves_plane_partial"
   ],
   "note": "the parity of every stored matrix of space is refuted by C138_false; proved: C138_parity_space_partial when the leading minors are at least 1/256, C138_parity_plane for every matrix of the plane; improvement (C138_improves_plane_partial) is proved in the plane for a first entry of at least 4/5"
  },
  {
   "property": "C139",
   "status": "partial",
   "theorems": [
    "WFMath.C139_mirror",
    "WFMath.C139_false",
    "WFMath.C139_nan_false",
    "WFMath.C139_quat_false",
    "WFMath.C139_fromTo_partial",
    "WFMath.C139_opposite",
    "WFMath.C139_plane_partial",
    "WFMath.C139_quat_partial"
   ],
   "note": "mirror(v) and the reporting of opposite directions in space are proved in full. The rotations are proved for vectors that are not nearly parallel or opposite and not both shorter than 1 (the cut-off of the inner product). Near parallel or opposite vectors the statement is false: parallel vectors are not noticed (C139_false), opposite vectors in two dimensions give NaN (C139_nan_false), and nearly opposite ones a quaternion that is too long (C139_quat_false)."
  },
  {
   "property": "C140",
   "status": "proved",
   "theorems": [
    "WFMath.C140_fail",
    "WFMath.C140_corners",
    "WFMath.C140_basis",
    "WFMath.C140_angle",
    "WFMath.C140_default",
    "WFMath.C140_first",
    "WFMath.C140_accept"
   ],
   "note": ""
  },
  {
   "property": "C141",
   "status": "proved",
   "theorems": [
    "WFMath.C141_quaternion",
    "WFMath.C141_coords",
    "WFMath.C141_quaternion_coords",
    "WFMath.C141_box_frame",
    "WFMath.C141_shift",
    "WFMath.C141_move_corner",
    "WFMath.C141_move_center",
    "WFMath.C141_rotate",
    "WFMath.C141_rotate_corner",
    "WFMath.C141_rotate_center",
    "WFMath.C141_rotbox_move",
    "WFMath.C141_rotbox_rotate"
   ],
   "note": ""
  },
  {
   "property": "C142",
   "status": "partial",
   "theorems": [
    "WFMath.C142_mag_partial",
    "WFMath.C142_normalize_partial",
    "WFMath.C142_distance_partial",
    "WFMath.C142_ball_partial",
    "WFMath.C142_equal_partial",
    "WFMath.C142_large",
    "WFMath.C142_small",
    "WFMath.C142_distant",
    "WFMath.C142_large_ball",
    "WFMath.C142_false",
    "WFMath.C142_length_partial",
    "WFMath.C142_near_partial",
    "WFMath.C142_same",
    "WFMath.C142_number",
    "WFMath.C142_product_partial",
    "WFMath.C142_unit_partial",
    "WFMath.C142_number_partial",
    "WFMath.C142_dot_partial",
    "WFMath.C142_box",
    "WFMath.C142_matrix",
    "WFMath.C142_quaternion"
   ],
   "note": "True within the stated range of the coordinates; C142_false, C142_large, C142_small, C142_distant and C142_large_ball show what happens outside. C142_length_partial, C142_near_partial, C142_product_partial and C142_unit_partial need no lower limit; C142_same and C142_number hold for all finite doubles."
  },
  {
   "property": "C143",
   "status": "partial",
   "theorems": [
    "WFMath.C143_equal_partial",
    "WFMath.C143_vector",
    "WFMath.C143_matrix",
    "WFMath.C143_quaternion",
    "WFMath.C143_mag_partial",
    "WFMath.C143_distance",
    "WFMath.C143_shapes",
    "WFMath.C143_false"
   ],
   "note": "Equal and mag behave as stated; C143_false, C143_vector, C143_matrix, C143_quaternion, C143_distance and C143_shapes show where NaN is accepted."
  },
  {
   "property": "C144",
   "status": "partial",
   "theorems": [
    "WFMath.C144_frames",
    "WFMath.C144_box_frames",
    "WFMath.C144_quaternion_corner_partial",
    "WFMath.C144_quaternion_center_partial",
    "WFMath.C144_rotbox_frames",
    "WFMath.C144_quaternion_frames_partial",
    "WFMath.C144_center",
    "WFMath.C144_false",
    "WFMath.C144_frames_false",
    "WFMath.C144_built",
    "WFMath.C144_shift",
    "WFMath.C144_move_corner",
    "WFMath.C144_move_center",
    "WFMath.C144_rotate",
    "WFMath.C144_quaternion",
    "WFMath.C144_rotate_corner",
    "WFMath.C144_rotate_center"
   ],
   "note": "rotateCorner and rotateCenter with a quaternion turn about the origin of the plane instead of the corner or the centre (C144_false); C144_quaternion_corner_partial and C144_quaternion_center_partial say where the corners come. toParentCoords and toLocalCoords with a quaternion turn the first axis twice and the second not at all (C144_frames_false); C144_quaternion_frames_partial says where the corners come."
  },
  {
   "property": "C145",
   "status": "partial",
   "theorems": [
    "WFMath.C145_frames",
    "WFMath.C145_box_frames",
    "WFMath.C145_rotbox_center",
    "WFMath.C145_barycenter_partial",
    "WFMath.C145_false",
    "WFMath.C145_sum",
    "WFMath.C145_scale",
    "WFMath.C145_midpoint",
    "WFMath.C145_midpoint_false",
    "WFMath.C145_rotate",
    "WFMath.C145_quaternion",
    "WFMath.C145_quaternion_frames",
    "WFMath.C145_between"
   ],
   "note": "The barycenter of two points at 2^1023 is infinite (C145_false): C145_barycenter_partial has coordinates up to 2^1000 and 2^20 points without weights. Midpoint of the smallest double with itself is off by the smallest double (C145_midpoint_false)."
  },
  {
   "property": "C146",
   "status": "partial",
   "theorems": [
    "WFMath.C146_construct_partial",
    "WFMath.C146_large",
    "WFMath.C146_small",
    "WFMath.C146_atlas_partial",
    "WFMath.C146_false",
    "WFMath.C146_axis_partial",
    "WFMath.C146_axis_large"
   ],
   "note": "The last sentence is false: from 2^512 on all components (C146_large, C146_false) or the vector part (C146_axis_large) come out 0, below 2^-538 infinite or NaN (C146_small), and the quaternion is marked valid. Lengths within 2^-50 of the cut-off, and between 2^500 and 2^512 or 2^-538 and 2^-450, are left open."
  },
  {
   "property": "C147",
   "status": "partial",
   "theorems": [
    "WFMath.C147_quaternion",
    "WFMath.C147_quaternion_frames",
    "WFMath.C147_parent",
    "WFMath.C147_local_partial",
    "WFMath.C147_box_frame",
    "WFMath.C147_false"
   ],
   "note": "Proved for quaternions (turning and frames, there and back), for parent frames with a matrix or another rotated box, and for axis-aligned boxes as frames. False for toLocalCoords with a matrix or rotated box (C147_false): the product is taken in the wrong order, as in exact arithmetic (C68_false); C147_local_partial says what comes out. Orientations of age below 20, which are not renormalised on the way."
  },
  {
   "property": "C148",
   "status": "proved",
   "theorems": [
    "WFMath.C148_point",
    "WFMath.C148_overlap",
    "WFMath.C148_inside",
    "WFMath.C148_union",
    "WFMath.C148_intersection",
    "WFMath.C148_bounding",
    "WFMath.C148_corners",
    "WFMath.C148_nan"
   ],
   "note": ""
  },
  {
   "property": "C149",
   "status": "partial",
   "theorems": [
    "WFMath.C149_built",
    "WFMath.C149_outside",
    "WFMath.C149_inside_partial",
    "WFMath.C149_near",
    "WFMath.C149_zero_false",
    "WFMath.C149_false",
    "WFMath.C149_ball"
   ],
   "note": "C149_inside_partial asks for the point to be near the plane relative to its distance from the origin of space, because the tolerance of the code is relative to that; at the origin itself the answer is always no (C149_false)."
  },
  {
   "property": "C150",
   "status": "partial",
   "theorems": [
    "WFMath.C150_encloses",
    "WFMath.C150_touches",
    "WFMath.C150_tight",
    "WFMath.C150_equal",
    "WFMath.C150_pair",
    "WFMath.C150_checked",
    "WFMath.C150_pair_returns",
    "WFMath.C150_false"
   ],
   "note": "C150_encloses and C150_touches speak of the balls that are returned; that one is returned for all lists of different points is false (C150_false). It is proved for two points whose distance is at least a quarter of their distances from the origin (C150_pair_returns); for which longer lists it is true is not determined. That no smaller ball with another center contains the points is only proved without rounding (C58)."
  },
  {
   "property": "C151",
   "status": "proved",
   "theorems": [
    "WFMath.C151_yes",
    "WFMath.C151_no",
    "WFMath.C151_inside"
   ],
   "note": ""
  },
  {
   "property": "C152",
   "status": "partial",
   "theorems": [
    "WFMath.C152_meets",
    "WFMath.C152_found",
    "WFMath.C152_missed",
    "WFMath.C152_answers",
    "WFMath.C152_false"
   ],
   "note": "C152_false: with the tolerance, when the square of the distance of the center from the plane exceeds the square of the radius by less than the tolerance, the root of a negative number is taken and a ball whose radius is not a number is compared; the proper test always has an answer (C152_answers). The theorems speak of polygons whose axes are unit vectors up to rounding, as C149_built proves of polygons made by addCorner and moved by shift, not of those that were turned."
  },
  {
   "property": "C153",
   "status": "proved",
   "theorems": [
    "WFMath.C153_box",
    "WFMath.C153_built",
    "WFMath.C153_turned"
   ],
   "note": ""
  },
  {
   "property": "C154",
   "status": "proved",
   "theorems": [
    "WFMath.C154_normal",
    "WFMath.C154_apart",
    "WFMath.C154_through",
    "WFMath.C154_found",
    "WFMath.C154_false"
   ],
   "note": ""
  },
  {
   "property": "C155",
   "status": "proved",
   "theorems": [
    "WFMath.C155_on",
    "WFMath.C155_near",
    "WFMath.C155_box",
    "WFMath.C155_space",
    "WFMath.C155_space_empty"
   ],
   "note": ""
  },
  {
   "property": "C156",
   "status": "proved",
   "theorems": [
    "WFMath.C156_rotbox",
    "WFMath.C156_empty",
    "WFMath.C156_stable"
   ],
   "note": ""
  },
  {
   "property": "C157",
   "status": "proved",
   "theorems": [
    "WFMath.C157_rotate",
    "WFMath.C157_shift",
    "WFMath.C157_parent",
    "WFMath.C157_local"
   ],
   "note": ""
  },
  {
   "property": "C158",
   "status": "proved",
   "theorems": [
    "WFMath.C158_history",
    "WFMath.C158_turns"
   ],
   "note": ""
  },
  {
   "property": "C159",
   "status": "proved",
   "theorems": [
    "WFMath.C159_distance",
    "WFMath.C159_ball",
    "WFMath.C159_balls",
    "WFMath.C159_turns"
   ],
   "note": ""
  },
  {
   "property": "C160",
   "status": "proved",
   "theorems": [
    "WFMath.C160_distance",
    "WFMath.C160_meet",
    "WFMath.C160_in_ball",
    "WFMath.C160_point",
    "WFMath.C160_turns"
   ],
   "note": ""
  },
  {
   "property": "C161",
   "status": "proved",
   "theorems": [
    "WFMath.C161_ball",
    "WFMath.C161_ball_converse",
    "WFMath.C161_in_ball"
   ],
   "note": ""
  },
  {
   "property": "C162",
   "status": "proved",
   "theorems": [
    "WFMath.C162_barycenter",
    "WFMath.C162_polygon"
   ],
   "note": ""
  },
  {
   "property": "C163",
   "status": "proved",
   "theorems": [
    "WFMath.C163_sphere",
    "WFMath.C163_sloppy"
   ],
   "note": ""
  },
  {
   "property": "C164",
   "status": "proved",
   "theorems": [
    "WFMath.C164_point",
    "WFMath.C164_ball",
    "WFMath.C164_segment",
    "WFMath.C164_turns"
   ],
   "note": ""
  },
  {
   "property": "C165",
   "status": "proved",
   "theorems": [
    "WFMath.C165_corners",
    "WFMath.C165_region"
   ],
   "note": ""
  },
  {
   "property": "C166",
   "status": "proved",
   "theorems": [
    "WFMath.C166_corners"
   ],
   "note": ""
  }
 ]
}