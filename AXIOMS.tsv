WFMath.C01_unsigned_numeral	propext,Classical.choice,Quot.sound
WFMath.C01_unsigned_injective	propext,Classical.choice,Quot.sound
WFMath.C01_buffer_bound_sharp	propext,Classical.choice,Quot.sound
WFMath.C02_signed_numeral	propext,Classical.choice,Quot.sound
WFMath.C02_signed_injective	propext,Classical.choice,Quot.sound
WFMath.C03_normalised_history	propext,Classical.choice,Quot.sound
WFMath.C03_constructor	propext,Classical.choice,Quot.sound
WFMath.C03_full_time	propext,Classical.choice,Quot.sound
WFMath.C04_history_exact	propext,Quot.sound
WFMath.C04_operations_exact	propext,Quot.sound
WFMath.C04_add_then_difference	propext,Classical.choice,Quot.sound
WFMath.C04_sub_then_add	propext,Classical.choice,Quot.sound
WFMath.C04_difference_then_add	propext,Classical.choice,Quot.sound
WFMath.C04_add_comm_assoc	propext,Classical.choice,Quot.sound
WFMath.C05_diff_order	propext,Classical.choice,Quot.sound
WFMath.C05_stamp_order	propext,Classical.choice,Quot.sound
WFMath.C05_strict_total	propext,Quot.sound
WFMath.C05_add_monotone	propext,Classical.choice,Quot.sound
WFMath.C06_millis_roundtrip_false	
WFMath.C06_millis_roundtrip_partial	propext,Classical.choice,Quot.sound
WFMath.C06_millis_valid	propext
WFMath.C07_valid_iff	propext
WFMath.C07_expression_valid	propext
WFMath.C08_mt19937	propext,Classical.choice,Quot.sound
WFMath.C08_spec_determines	propext,Classical.choice,Quot.sound
WFMath.C08_mt19937_array	propext,Classical.choice,Quot.sound
WFMath.C08_array_spec_inhabited	propext,Classical.choice,Quot.sound
WFMath.C09_no_out_of_bounds	propext,Classical.choice,Quot.sound
WFMath.C09_empty_array_reads_outside	propext,Classical.choice,Quot.sound
WFMath.C10_save_load	propext,Classical.choice,Quot.sound
WFMath.C11_in_range	propext,Quot.sound
WFMath.C11_uses_draws	propext,Quot.sound
WFMath.C11_unbiased_word	propext,Classical.choice,Quot.sound
WFMath.C11_unbiased_stream	propext,Classical.choice,Quot.sound
WFMath.C11_mask	propext,Classical.choice,Quot.sound
WFMath.C12_rand_interval	propext,Classical.choice,Quot.sound
WFMath.C13_permutation	propext,Classical.choice,Quot.sound
WFMath.C13_fair	propext,Classical.choice,Quot.sound
WFMath.C13_unfair_above_uint32	propext,Classical.choice,Quot.sound
WFMath.C14_refl	propext,Classical.choice,Quot.sound
WFMath.C14_symm	propext,Classical.choice,Quot.sound
WFMath.C14_sound	propext,Classical.choice,Quot.sound
WFMath.C14_complete	propext,Classical.choice,Quot.sound
WFMath.C14_scale	propext,Classical.choice,Quot.sound
WFMath.C14_zero	propext,Classical.choice,Quot.sound
WFMath.C15_clamp_mem	propext
WFMath.C15_clamp_id	propext
WFMath.C15_clamp_nearest	propext,Classical.choice,Quot.sound
WFMath.C15_minmax	propext
WFMath.C16_valid_conj	propext,Classical.choice,Quot.sound
WFMath.C17_components	propext,Classical.choice,Quot.sound
WFMath.C17_laws	propext,Classical.choice,Quot.sound
WFMath.C17_div_mul	propext,Classical.choice,Quot.sound
WFMath.C18_dot	propext,Classical.choice,Quot.sound
WFMath.C18_exact	propext,Classical.choice,Quot.sound
WFMath.C18_cut	propext,Classical.choice,Quot.sound
WFMath.C18_symm	propext,Classical.choice,Quot.sound
WFMath.C18_zero	propext,Classical.choice,Quot.sound
WFMath.C18_maxAbs	propext,Classical.choice,Quot.sound
WFMath.C18_tiny	propext,Classical.choice,Quot.sound
WFMath.C19_dim1	propext,Classical.choice,Quot.sound
WFMath.C19_dim2	propext,Classical.choice,Quot.sound
WFMath.C19_dim3_partial	propext,Classical.choice,Quot.sound
WFMath.C19_dim3_gap	propext,Classical.choice,Quot.sound
WFMath.C19_false	propext,Classical.choice,Quot.sound
WFMath.C20_length	propext,Classical.choice,Quot.sound
WFMath.C20_direction	propext,Classical.choice,Quot.sound
WFMath.C20_sloppy_dim2	propext,Classical.choice,Quot.sound
WFMath.C20_sloppy_dim3_partial	propext,Classical.choice,Quot.sound
WFMath.C20_false	propext,Classical.choice,Quot.sound
WFMath.C20_sloppy_succeeds	propext,Classical.choice,Quot.sound
WFMath.C21_components	propext,Classical.choice,Quot.sound
WFMath.C21_antisymm	propext,Classical.choice,Quot.sound
WFMath.C21_orthogonal	propext,Classical.choice,Quot.sound
WFMath.C21_length	propext,Classical.choice,Quot.sound
WFMath.C22_false	propext,Classical.choice,Quot.sound
WFMath.C22_partial	propext,Classical.choice,Quot.sound
WFMath.C23_range	propext,Classical.choice,Quot.sound
WFMath.C23_symm	propext,Classical.choice,Quot.sound
WFMath.C23_cos	propext,Classical.choice,Quot.sound
WFMath.C23_cos_error	propext,Classical.choice,Quot.sound
WFMath.C23_parallel_partial	propext,Classical.choice,Quot.sound
WFMath.C23_false	propext,Classical.choice,Quot.sound
WFMath.C24_components	propext,Classical.choice,Quot.sound
WFMath.C24_defined	propext,Classical.choice,Quot.sound
WFMath.C24_matrix	propext,Classical.choice,Quot.sound
WFMath.C24_length	propext,Classical.choice,Quot.sound
WFMath.C24_additive	propext,Classical.choice,Quot.sound
WFMath.C24_inverse	propext,Classical.choice,Quot.sound
WFMath.C24_plane	propext,Classical.choice,Quot.sound
WFMath.C25_rodrigues	propext,Classical.choice,Quot.sound
WFMath.C25_defined	propext,Classical.choice,Quot.sound
WFMath.C25_exact	propext,Classical.choice,Quot.sound
WFMath.C25_fixes_axis	propext,Classical.choice,Quot.sound
WFMath.C25_error	propext,Classical.choice,Quot.sound
WFMath.C25_quaternion	propext,Classical.choice,Quot.sound
WFMath.C25_mag	propext,Classical.choice,Quot.sound
WFMath.C25_agree_quaternion	propext,Classical.choice,Quot.sound
WFMath.C25_matrix	propext,Classical.choice,Quot.sound
WFMath.C25_matrix_defined	propext,Classical.choice,Quot.sound
WFMath.C25_agree_matrix	propext,Classical.choice,Quot.sound
WFMath.C25_coordinate_axes	propext,Classical.choice,Quot.sound
WFMath.C26_axis	propext,Classical.choice,Quot.sound
WFMath.C26_all	propext,Classical.choice,Quot.sound
WFMath.C26_dir_length	propext,Classical.choice,Quot.sound
WFMath.C26_dir_fixes	propext,Classical.choice,Quot.sound
WFMath.C26_dir_negates	propext,Classical.choice,Quot.sound
WFMath.C26_dir_involution	propext,Classical.choice,Quot.sound
WFMath.C26_dir_involution_error	propext,Classical.choice,Quot.sound
WFMath.C27_atan2	propext,Classical.choice,Quot.sound
WFMath.C27_polar_partial	propext,Classical.choice,Quot.sound
WFMath.C27_polar3_partial	propext,Classical.choice,Quot.sound
WFMath.C27_false	propext,Classical.choice,Quot.sound
WFMath.C27_diagonal_partial	propext,Classical.choice,Quot.sound
WFMath.C27_spherical_partial	propext,Classical.choice,Quot.sound
WFMath.C27_spherical_false	propext,Classical.choice,Quot.sound
WFMath.C27_polar_back_partial	propext,Classical.choice,Quot.sound
WFMath.C27_point_polar_partial	propext,Classical.choice,Quot.sound
WFMath.C27_point_spherical_partial	propext,Classical.choice,Quot.sound
WFMath.C27_point_false	propext,Classical.choice,Quot.sound
WFMath.C28_point_iff	propext,Classical.choice,Quot.sound
WFMath.C28_point_laws	propext,Classical.choice,Quot.sound
WFMath.C28_vector_iff	propext,Classical.choice,Quot.sound
WFMath.C28_scale	propext,Classical.choice,Quot.sound
WFMath.C28_vector_laws	propext,Classical.choice,Quot.sound
WFMath.C29_affine	propext,Classical.choice,Quot.sound
WFMath.C29_difference	propext,Classical.choice,Quot.sound
WFMath.C29_valid	propext,Classical.choice,Quot.sound
WFMath.C29_convert	propext,Classical.choice,Quot.sound
WFMath.C30_midpoint	propext,Classical.choice,Quot.sound
WFMath.C30_mean	propext,Classical.choice,Quot.sound
WFMath.C30_empty	propext,Classical.choice,Quot.sound
WFMath.C30_in_box	propext,Classical.choice,Quot.sound
WFMath.C30_order	propext,Classical.choice,Quot.sound
WFMath.C30_translate	propext,Classical.choice,Quot.sound
WFMath.C30_weighted	propext,Classical.choice,Quot.sound
WFMath.C30_weighted_refused	propext,Classical.choice,Quot.sound
WFMath.C30_equal_weights	propext,Classical.choice,Quot.sound
WFMath.C30_proportional	propext,Classical.choice,Quot.sound
WFMath.C31_matrix	propext,Classical.choice,Quot.sound
WFMath.C31_matrix_distance	propext,Classical.choice,Quot.sound
WFMath.C31_quaternion	propext,Classical.choice,Quot.sound
WFMath.C31_quaternion_error	propext,Classical.choice,Quot.sound
WFMath.C31_quaternion_distance	propext,Classical.choice,Quot.sound
WFMath.C32_sqDist	propext,Classical.choice,Quot.sound
WFMath.C32_error	propext,Classical.choice,Quot.sound
WFMath.C32_dist	propext,Classical.choice,Quot.sound
WFMath.C33_exact_partial	propext,Classical.choice,Quot.sound
WFMath.C33_drift_partial	propext,Classical.choice,Quot.sound
WFMath.C33_false	propext,Classical.choice,Quot.sound
WFMath.C34_mul	propext,Classical.choice,Quot.sound
WFMath.C34_mul_error	propext,Classical.choice,Quot.sound
WFMath.C34_div	propext,Classical.choice,Quot.sound
WFMath.C34_div_error	propext,Classical.choice,Quot.sound
WFMath.C34_identity	propext,Classical.choice,Quot.sound
WFMath.C34_assoc	propext,Classical.choice,Quot.sound
WFMath.C34_assoc_error	propext,Classical.choice,Quot.sound
WFMath.C35_dot	propext,Classical.choice,Quot.sound
WFMath.C35_cross	propext,Classical.choice,Quot.sound
WFMath.C35_inverse	propext,Classical.choice,Quot.sound
WFMath.C35_dot_error	propext,Classical.choice,Quot.sound
WFMath.C35_cross_error	propext,Classical.choice,Quot.sound
WFMath.C35_inverse_error	propext,Classical.choice,Quot.sound
WFMath.C36_matrix	propext,Classical.choice,Quot.sound
WFMath.C36_same_rotation	propext,Classical.choice,Quot.sound
WFMath.C36_roundtrip_partial	propext,Classical.choice,Quot.sound
WFMath.C36_wrong	propext,Classical.choice,Quot.sound
WFMath.C36_false	propext,Classical.choice,Quot.sound
WFMath.C36_assert	propext,Classical.choice,Quot.sound
WFMath.C36_back_partial	propext,Classical.choice,Quot.sound
WFMath.C37_iff	propext,Classical.choice,Quot.sound
WFMath.C37_laws	propext,Classical.choice,Quot.sound
WFMath.C38_direction	propext,Classical.choice,Quot.sound
WFMath.C38_rotate	propext,Classical.choice,Quot.sound
WFMath.C38_outcome	propext,Classical.choice,Quot.sound
WFMath.C38_fallback	propext,Classical.choice,Quot.sound
WFMath.C39_step	propext,Classical.choice,Quot.sound
WFMath.C39_limit	propext,Classical.choice,Quot.sound
WFMath.C40_invariant	propext,Classical.choice,Quot.sound
WFMath.C41_compose	propext,Classical.choice,Quot.sound
WFMath.C41_products	propext,Classical.choice,Quot.sound
WFMath.C41_inverse	propext,Classical.choice,Quot.sound
WFMath.C41_sides	propext,Classical.choice,Quot.sound
WFMath.C41_isometry	propext,Classical.choice,Quot.sound
WFMath.C41_accessors	propext,Classical.choice,Quot.sound
WFMath.C42_axes	propext,Classical.choice,Quot.sound
WFMath.C42_plane	propext,Classical.choice,Quot.sound
WFMath.C42_plane_defined	propext,Classical.choice,Quot.sound
WFMath.C42_vector	propext,Classical.choice,Quot.sound
WFMath.C42_vector_defined	propext,Classical.choice,Quot.sound
WFMath.C43_partial	propext,Classical.choice,Quot.sound
WFMath.C43_opposite	propext,Classical.choice,Quot.sound
WFMath.C43_defined	propext,Classical.choice,Quot.sound
WFMath.C43_false	propext,Classical.choice,Quot.sound
WFMath.C44_axis	propext,Classical.choice,Quot.sound
WFMath.C44_direction	propext,Classical.choice,Quot.sound
WFMath.C44_direction_defined	propext,Classical.choice,Quot.sound
WFMath.C44_all	propext,Classical.choice,Quot.sound
WFMath.C45_fixed	propext,Classical.choice,Quot.sound
WFMath.C45_step	propext,Classical.choice,Quot.sound
WFMath.C45_error	propext,Classical.choice,Quot.sound
WFMath.C45_contract	propext,Classical.choice,Quot.sound
WFMath.C45_global	propext,Classical.choice,Quot.sound
WFMath.C46_orthogonal	propext,Classical.choice,Quot.sound
WFMath.C46_parity_limits	propext,Classical.choice,Quot.sound
WFMath.C46_refuses	propext,Classical.choice,Quot.sound
WFMath.C46_accepts	propext,Classical.choice,Quot.sound
WFMath.C46_terminates	propext,Classical.choice,Quot.sound
WFMath.C46_parity	propext,Classical.choice,Quot.sound
WFMath.C46_rotation	propext,Classical.choice,Quot.sound
WFMath.C47_inverse	propext,Classical.choice,Quot.sound
WFMath.C47_solve	propext,Classical.choice,Quot.sound
WFMath.C47_singular	propext,Classical.choice,Quot.sound
WFMath.C47_failure	propext,Classical.choice,Quot.sound
WFMath.C47_inverse_partial	propext,Classical.choice,Quot.sound
WFMath.C47_determinant_partial	propext,Classical.choice,Quot.sound
WFMath.C47_false	propext,Classical.choice,Quot.sound
WFMath.C47_determinant_false	propext,Classical.choice,Quot.sound
WFMath.C48_partial	propext,Classical.choice,Quot.sound
WFMath.C48_false	propext,Classical.choice,Quot.sound
WFMath.C49_partial	propext,Classical.choice,Quot.sound
WFMath.C49_ordered	propext,Classical.choice,Quot.sound
WFMath.C49_false	propext,Classical.choice,Quot.sound
WFMath.C50_disjoint	propext,Classical.choice,Quot.sound
WFMath.C50_points	propext,Classical.choice,Quot.sound
WFMath.C51_least	propext,Classical.choice,Quot.sound
WFMath.C51_laws	propext,Classical.choice,Quot.sound
WFMath.C52_boxes	propext,Classical.choice,Quot.sound
WFMath.C52_boxes_order	propext,Classical.choice,Quot.sound
WFMath.C52_points	propext,Classical.choice,Quot.sound
WFMath.C52_points_order	propext,Classical.choice,Quot.sound
WFMath.C52_empty	propext,Classical.choice,Quot.sound
WFMath.C52_barycenter	propext,Classical.choice,Quot.sound
WFMath.C52_point	propext,Classical.choice,Quot.sound
WFMath.C52_segment	propext,Classical.choice,Quot.sound
WFMath.C52_segment_false	propext,Classical.choice,Quot.sound
WFMath.C52_corners	propext,Classical.choice,Quot.sound
WFMath.C52_polygon	propext,Classical.choice,Quot.sound
WFMath.C53_bits	propext,Classical.choice,Quot.sound
WFMath.C53_in_box	propext,Classical.choice,Quot.sound
WFMath.C53_vertices	propext,Classical.choice,Quot.sound
WFMath.C53_injective	propext,Classical.choice,Quot.sound
WFMath.C53_opposite	propext,Classical.choice,Quot.sound
WFMath.C53_center	propext,Classical.choice,Quot.sound
WFMath.C53_valid	propext,Classical.choice,Quot.sound
WFMath.C54_point	propext,Classical.choice,Quot.sound
WFMath.C54_overlap	propext,Classical.choice,Quot.sound
WFMath.C54_overlap_proper	propext,Classical.choice,Quot.sound
WFMath.C54_overlap_solid	propext,Classical.choice,Quot.sound
WFMath.C54_contains	propext,Classical.choice,Quot.sound
WFMath.C54_symm	propext,Classical.choice,Quot.sound
WFMath.C54_contains_intersect	propext,Classical.choice,Quot.sound
WFMath.C54_trans_partial	propext,Classical.choice,Quot.sound
WFMath.C54_trans_false	propext,Classical.choice,Quot.sound
WFMath.C54_point_contains	propext,Classical.choice,Quot.sound
WFMath.C55_point	propext,Classical.choice,Quot.sound
WFMath.C55_box	propext,Classical.choice,Quot.sound
WFMath.C55_box_solid	propext,Classical.choice,Quot.sound
WFMath.C55_contains_box	propext,Classical.choice,Quot.sound
WFMath.C55_box_contains	propext,Classical.choice,Quot.sound
WFMath.C55_balls	propext,Classical.choice,Quot.sound
WFMath.C55_contains_ball	propext,Classical.choice,Quot.sound
WFMath.C55_point_contains	propext,Classical.choice,Quot.sound
WFMath.C56_box_sloppy2	propext,Classical.choice,Quot.sound
WFMath.C56_box_sloppy3	propext,Classical.choice,Quot.sound
WFMath.C56_box_partial	propext,Classical.choice,Quot.sound
WFMath.C56_box_false	propext,Classical.choice,Quot.sound
WFMath.C56_segment_sloppy2	propext,Classical.choice,Quot.sound
WFMath.C56_segment_sloppy3	propext,Classical.choice,Quot.sound
WFMath.C56_segment_partial	propext,Classical.choice,Quot.sound
WFMath.C56_rotbox	propext,Classical.choice,Quot.sound
WFMath.C56_rotbox_sloppy_partial	propext,Classical.choice,Quot.sound
WFMath.C56_rotbox_false	propext,Classical.choice,Quot.sound
WFMath.C56_point	propext,Classical.choice,Quot.sound
WFMath.C57_dim2	propext,Classical.choice,Quot.sound
WFMath.C57_dim3	propext,Classical.choice,Quot.sound
WFMath.C57_empty	propext,Classical.choice,Quot.sound
WFMath.C57_polygon	propext,Classical.choice,Quot.sound
WFMath.C57_polygon_empty	propext,Classical.choice,Quot.sound
WFMath.C58_unchecked_partial	propext,Classical.choice,Quot.sound
WFMath.C58_smallest_partial	propext,Classical.choice,Quot.sound
WFMath.C58_order_partial	propext,Classical.choice,Quot.sound
WFMath.C58_encloses	propext,Classical.choice,Quot.sound
WFMath.C58_false	propext,Classical.choice,Quot.sound
WFMath.C58_empty	propext,Classical.choice,Quot.sound
WFMath.C58_polygon_partial	propext,Classical.choice,Quot.sound
WFMath.C59_closed	propext,Classical.choice,Quot.sound
WFMath.C59_tolerance	propext,Classical.choice,Quot.sound
WFMath.C59_proper	propext,Classical.choice,Quot.sound
WFMath.C60_rejects	propext,Classical.choice,Quot.sound
WFMath.C60_accepts_partial	propext,Classical.choice,Quot.sound
WFMath.C60_false	propext,Classical.choice,Quot.sound
WFMath.C61_accepts	propext,Classical.choice,Quot.sound
WFMath.C61_accepts_proper	propext,Classical.choice,Quot.sound
WFMath.C61_rejects_proper	propext,Classical.choice,Quot.sound
WFMath.C61_rejects_partial	propext,Classical.choice,Quot.sound
WFMath.C61_false	propext,Classical.choice,Quot.sound
WFMath.C62_lines_partial	propext,Classical.choice,Quot.sound
WFMath.C62_parallel_partial	propext,Classical.choice,Quot.sound
WFMath.C62_false	propext,Classical.choice,Quot.sound
WFMath.C63_box	propext,Classical.choice,Quot.sound
WFMath.C63_ball	propext,Classical.choice,Quot.sound
WFMath.C64_point	propext,Classical.choice,Quot.sound
WFMath.C64_corners	propext,Classical.choice,Quot.sound
WFMath.C64_corner_member	propext,Classical.choice,Quot.sound
WFMath.C64_center	propext,Classical.choice,Quot.sound
WFMath.C64_point_contains	propext,Classical.choice,Quot.sound
WFMath.C65_bounding_box	propext,Classical.choice,Quot.sound
WFMath.C66_shared_any_partial	propext,Classical.choice,Quot.sound
WFMath.C66_shared_false	propext,Classical.choice,Quot.sound
WFMath.C66_plane	propext,Classical.choice,Quot.sound
WFMath.C66_shared	propext,Classical.choice,Quot.sound
WFMath.C66_reported_partial	propext,Classical.choice,Quot.sound
WFMath.C66_reported_any_partial	propext,Classical.choice,Quot.sound
WFMath.C66_proper_partial	propext,Classical.choice,Quot.sound
WFMath.C66_plane_rotated	propext,Classical.choice,Quot.sound
WFMath.C66_space_rotated_partial	propext,Classical.choice,Quot.sound
WFMath.C66_false	propext,Classical.choice,Quot.sound
WFMath.C67_axis_rotated	propext,Classical.choice,Quot.sound
WFMath.C67_rotated_axis	propext,Classical.choice,Quot.sound
WFMath.C67_rotated_rotated	propext,Classical.choice,Quot.sound
WFMath.C68_polygon_quaternion_partial	propext,Classical.choice,Quot.sound
WFMath.C68_polygon_local_false	propext,Classical.choice,Quot.sound
WFMath.C68_segment	propext,Classical.choice,Quot.sound
WFMath.C68_segment_quaternion	propext,Classical.choice,Quot.sound
WFMath.C68_ball	propext,Classical.choice,Quot.sound
WFMath.C68_ball_quaternion	propext,Classical.choice,Quot.sound
WFMath.C68_corners	propext,Classical.choice,Quot.sound
WFMath.C68_rotbox_parent	propext,Classical.choice,Quot.sound
WFMath.C68_rotbox_box	propext,Classical.choice,Quot.sound
WFMath.C68_rotbox_partial	propext,Classical.choice,Quot.sound
WFMath.C68_false	propext,Classical.choice,Quot.sound
WFMath.C68_rotbox_quaternion_partial	propext,Classical.choice,Quot.sound
WFMath.C68_polygon	propext,Classical.choice,Quot.sound
WFMath.C68_polygon_false	propext,Classical.choice,Quot.sound
WFMath.C68_box	propext,Classical.choice,Quot.sound
WFMath.C69_box	propext,Classical.choice,Quot.sound
WFMath.C69_box_shift	propext,Classical.choice,Quot.sound
WFMath.C69_ball	propext,Classical.choice,Quot.sound
WFMath.C69_segment	propext,Classical.choice,Quot.sound
WFMath.C69_segment_shift	propext,Classical.choice,Quot.sound
WFMath.C69_rotbox	propext,Classical.choice,Quot.sound
WFMath.C69_rotbox_shift	propext,Classical.choice,Quot.sound
WFMath.C69_corners	propext,Classical.choice,Quot.sound
WFMath.C69_corners_shift	propext,Classical.choice,Quot.sound
WFMath.C69_polygon	propext,Classical.choice,Quot.sound
WFMath.C69_polygon_center	propext,Classical.choice,Quot.sound
WFMath.C69_polygon_shift	propext,Classical.choice,Quot.sound
WFMath.C70_ball_quaternion	propext,Classical.choice,Quot.sound
WFMath.C70_ball_fixed	propext,Classical.choice,Quot.sound
WFMath.C70_motion	propext,Classical.choice,Quot.sound
WFMath.C70_motion_quaternion	propext,Classical.choice,Quot.sound
WFMath.C70_segment	propext,Classical.choice,Quot.sound
WFMath.C70_segment_quaternion	propext,Classical.choice,Quot.sound
WFMath.C70_ball	propext,Classical.choice,Quot.sound
WFMath.C70_rotbox	propext,Classical.choice,Quot.sound
WFMath.C70_rotbox_quaternion_partial	propext,Classical.choice,Quot.sound
WFMath.C70_corners	propext,Classical.choice,Quot.sound
WFMath.C70_polygon	propext,Classical.choice,Quot.sound
WFMath.C70_polygon_total	propext,Classical.choice,Quot.sound
WFMath.C70_polygon_corner	propext,Classical.choice,Quot.sound
WFMath.C70_polygon_center	propext,Classical.choice,Quot.sound
WFMath.C70_polygon_quaternion_partial	propext,Classical.choice,Quot.sound
WFMath.C70_false	propext,Classical.choice,Quot.sound
WFMath.C70_segment_quaternion_center	propext,Classical.choice,Quot.sound
WFMath.C70_rotbox_quaternion_corner_partial	propext,Classical.choice,Quot.sound
WFMath.C70_polygon_quaternion_origin_partial	propext,Classical.choice,Quot.sound
WFMath.C70_center_false	propext,Classical.choice,Quot.sound
WFMath.C71_edits	propext,Quot.sound
WFMath.C71_empty	propext
WFMath.C71_equal	propext,Classical.choice,Quot.sound
WFMath.C71_valid	propext,Classical.choice,Quot.sound
WFMath.C72_fail	propext,Classical.choice,Quot.sound
WFMath.C72_partial	propext,Classical.choice,Quot.sound
WFMath.C72_basis	propext,Classical.choice,Quot.sound
WFMath.C72_coplanar	propext,Classical.choice,Quot.sound
WFMath.C72_false	propext,Classical.choice,Quot.sound
WFMath.C73_remove_partial	propext,Classical.choice,Quot.sound
WFMath.C73_move_partial	propext,Classical.choice,Quot.sound
WFMath.C73_false	propext,Classical.choice,Quot.sound
WFMath.C73_moved_false	propext,Classical.choice,Quot.sound
WFMath.C74_moved	propext,Classical.choice,Quot.sound
WFMath.C74_moves	propext,Classical.choice,Quot.sound
WFMath.C74_exact	propext,Classical.choice,Quot.sound
WFMath.C74_even_odd	propext,Classical.choice,Quot.sound
WFMath.C74_renumber	propext,Classical.choice,Quot.sound
WFMath.C74_reverse	propext,Classical.choice,Quot.sound
WFMath.C74_walk	propext,Classical.choice,Quot.sound
WFMath.C74_region	propext,Classical.choice,Quot.sound
WFMath.C74_outside	propext,Classical.choice,Quot.sound
WFMath.C74_triangle	propext,Classical.choice,Quot.sound
WFMath.C75_box	propext,Classical.choice,Quot.sound
WFMath.C75_rotbox	propext,Classical.choice,Quot.sound
WFMath.C75_ball	propext,Classical.choice,Quot.sound
WFMath.C75_ball_general	propext,Classical.choice,Quot.sound
WFMath.C75_box_space	propext,Classical.choice,Quot.sound
WFMath.C75_rotbox_space	propext,Classical.choice,Quot.sound
WFMath.C75_ball_space	propext,Classical.choice,Quot.sound
WFMath.C76_vector	propext,Classical.choice,Quot.sound
WFMath.C76_point	propext,Classical.choice,Quot.sound
WFMath.C76_accepts	propext,Classical.choice,Quot.sound
WFMath.C76_rejects	propext,Classical.choice,Quot.sound
WFMath.C77_box	propext,Classical.choice,Quot.sound
WFMath.C77_segment	propext,Classical.choice,Quot.sound
WFMath.C77_ball	propext,Classical.choice,Quot.sound
WFMath.C77_matrix	propext,Classical.choice,Quot.sound
WFMath.C77_matrix_general	propext,Classical.choice,Quot.sound
WFMath.C77_low_precision_false	propext,Classical.choice,Quot.sound
WFMath.C77_rotbox	propext,Classical.choice,Quot.sound
WFMath.C77_quaternion	propext,Classical.choice,Quot.sound
WFMath.C77_fromString_false	propext,Classical.choice,Quot.sound
WFMath.C77_polygon2	propext,Classical.choice,Quot.sound
WFMath.C77_polygon3_partial	propext,Classical.choice,Quot.sound
WFMath.C77_polygon3_false	propext,Classical.choice,Quot.sound
WFMath.C77_empty_false	propext,Classical.choice,Quot.sound
WFMath.C78_vector	propext,Classical.choice,Quot.sound
WFMath.C78_point	propext,Classical.choice,Quot.sound
WFMath.C78_quaternion	propext,Classical.choice,Quot.sound
WFMath.C78_box	propext,Classical.choice,Quot.sound
WFMath.C78_ball	propext,Classical.choice,Quot.sound
WFMath.C78_polygon_partial	propext,Classical.choice,Quot.sound
WFMath.C78_line_partial	propext,Classical.choice,Quot.sound
WFMath.C78_append_false	propext,Classical.choice,Quot.sound
WFMath.C78_few_false	propext,Classical.choice,Quot.sound
WFMath.C78_rotbox_partial	propext,Classical.choice,Quot.sound
WFMath.C78_rotbox_false	propext,Classical.choice,Quot.sound
WFMath.C78_valid	propext,Classical.choice,Quot.sound
WFMath.C79_vector	propext,Classical.choice,Quot.sound
WFMath.C79_throw_false	propext,Classical.choice,Quot.sound
WFMath.C79_quaternion	propext,Classical.choice,Quot.sound
WFMath.C79_box_corners	propext,Classical.choice,Quot.sound
WFMath.C79_box_origin	propext,Classical.choice,Quot.sound
WFMath.C79_box	propext,Classical.choice,Quot.sound
WFMath.C79_corner_false	propext,Classical.choice,Quot.sound
WFMath.C79_ball_false	propext,Classical.choice,Quot.sound
WFMath.C79_ball_radius_false	propext,Classical.choice,Quot.sound
WFMath.C79_ball_partial	propext,Classical.choice,Quot.sound
WFMath.C79_corners	propext,Classical.choice,Quot.sound
WFMath.C79_rotbox	propext,Classical.choice,Quot.sound
WFMath.C79_numbers	propext,Classical.choice,Quot.sound
WFMath.Prob.C80_factorial_small	propext,Classical.choice,Quot.sound
WFMath.Prob.C80_logFactorial_small	propext,Classical.choice,Quot.sound
WFMath.Prob.C80_logFactorial	propext,Classical.choice,Quot.sound
WFMath.Prob.C80_factorial	propext,Classical.choice,Quot.sound
WFMath.Prob.C80_gaussian	propext,Classical.choice,Quot.sound
WFMath.Prob.C80_gaussian_density	propext,Classical.choice,Quot.sound
WFMath.Prob.C80_poisson	propext,Classical.choice,Quot.sound
WFMath.Prob.C81_partial	propext,Classical.choice,Quot.sound
WFMath.Prob.C81_false	propext,Classical.choice,Quot.sound
WFMath.Prob.C82_terminates	propext,Classical.choice,Quot.sound
WFMath.Prob.C82_rejects	propext,Classical.choice,Quot.sound
WFMath.Prob.C82_accuracy	propext,Classical.choice,Quot.sound
WFMath.C83_false	propext,Classical.choice,Quot.sound
WFMath.C83_partial	propext,Classical.choice,Quot.sound
WFMath.C84_partial	propext,Classical.choice,Quot.sound
WFMath.C84_false	propext,Classical.choice,Quot.sound
WFMath.C85_false	propext,Classical.choice,Quot.sound
WFMath.C85_partial	propext,Classical.choice,Quot.sound
WFMath.C85_default	propext,Classical.choice,Quot.sound
WFMath.C86_rotate	propext,Classical.choice,Quot.sound
WFMath.C87_ball_box	propext,Classical.choice,Quot.sound
WFMath.C88_segment	propext,Classical.choice,Quot.sound
WFMath.C88_segment_proper	propext,Classical.choice,Quot.sound
WFMath.C88_box	propext,Classical.choice,Quot.sound
WFMath.C88_box_proper	propext,Classical.choice,Quot.sound
WFMath.C88_ball	propext,Classical.choice,Quot.sound
WFMath.C88_ball_inside	propext,Classical.choice,Quot.sound
WFMath.C89_ball	propext,Classical.choice,Quot.sound
WFMath.C89_contains_ball	propext,Classical.choice,Quot.sound
WFMath.C89_ball_contains	propext,Classical.choice,Quot.sound
WFMath.C89_segment	propext,Classical.choice,Quot.sound
WFMath.C89_contains_segment	propext,Classical.choice,Quot.sound
WFMath.C89_segment_contains	propext,Classical.choice,Quot.sound
WFMath.C90_readable	propext,Classical.choice,Quot.sound
WFMath.C90_basis	propext,Classical.choice,Quot.sound
WFMath.C90_total	propext,Classical.choice,Quot.sound
WFMath.C91_lists	propext,Classical.choice,Quot.sound
WFMath.C91_false	propext,Classical.choice,Quot.sound
WFMath.C91_box_partial	propext,Classical.choice,Quot.sound
WFMath.C92_parallel_multiple	propext,Classical.choice,Quot.sound
WFMath.C92_parallel_sound	propext,Classical.choice,Quot.sound
WFMath.C92_parallel_complete	propext,Classical.choice,Quot.sound
WFMath.C92_parallel_false	propext,Classical.choice,Quot.sound
WFMath.C92_perp_zero	propext,Classical.choice,Quot.sound
WFMath.C92_perp_sound	propext,Classical.choice,Quot.sound
WFMath.C92_perp_complete	propext,Classical.choice,Quot.sound
WFMath.C92_symmetric	propext,Classical.choice,Quot.sound
WFMath.C92_perp_false	propext,Classical.choice,Quot.sound
WFMath.C93_slanted_partial	propext,Classical.choice,Quot.sound
WFMath.C93_false	propext,Classical.choice,Quot.sound
WFMath.Prob.C94_accuracy	propext,Classical.choice,Quot.sound
WFMath.Prob.C94_gamma	propext,Classical.choice,Quot.sound
WFMath.Prob.C94_returns	propext,Classical.choice,Quot.sound
WFMath.Prob.C94_total	propext,Classical.choice,Quot.sound
WFMath.Prob.C94_special	propext,Classical.choice,Quot.sound
WFMath.Prob.C94_false	propext,Classical.choice,Quot.sound
WFMath.Prob.C95_poisson_low	propext,Classical.choice,Quot.sound
WFMath.Prob.C95_gaussian_mean	propext,Classical.choice,Quot.sound
WFMath.Prob.C95_gaussian_false	propext,Classical.choice,Quot.sound
WFMath.Prob.C95_gaussian_tail	propext,Classical.choice,Quot.sound
WFMath.Prob.C95_poisson_high	propext,Classical.choice,Quot.sound
WFMath.Prob.C95_poisson	propext,Classical.choice,Quot.sound
WFMath.C96_iff	propext,Classical.choice,Quot.sound
WFMath.C96_invalid	propext,Classical.choice,Quot.sound
WFMath.C96_refl	propext,Classical.choice,Quot.sound
WFMath.C96_symm	propext,Classical.choice,Quot.sound
WFMath.C96_rotation	propext,Classical.choice,Quot.sound
WFMath.C96_coarse	propext,Classical.choice,Quot.sound
WFMath.C97_accepts	propext,Classical.choice,Quot.sound
WFMath.C97_rejects	propext,Classical.choice,Quot.sound
WFMath.C97_answers	propext,Classical.choice,Quot.sound
WFMath.C97_contains	propext,Classical.choice,Quot.sound
WFMath.C97_contained	propext,Classical.choice,Quot.sound
WFMath.C98_accepts_partial	propext,Classical.choice,Quot.sound
WFMath.C98_rejects	propext,Classical.choice,Quot.sound
WFMath.C98_exact_partial	propext,Classical.choice,Quot.sound
WFMath.C98_inside	propext,Classical.choice,Quot.sound
WFMath.C98_false	propext,Classical.choice,Quot.sound
WFMath.C98_rotbox_partial	propext,Classical.choice,Quot.sound
WFMath.C98_rotbox_inside	propext,Classical.choice,Quot.sound
WFMath.C99_exact_partial	propext,Classical.choice,Quot.sound
WFMath.C99_false	propext,Classical.choice,Quot.sound
WFMath.C99_rotbox_partial	propext,Classical.choice,Quot.sound
WFMath.C100_end_partial	propext,Classical.choice,Quot.sound
WFMath.C100_answers	propext,Classical.choice,Quot.sound
WFMath.C100_false	propext,Classical.choice,Quot.sound
WFMath.C100_contains_partial	propext,Classical.choice,Quot.sound
WFMath.C100_contains_false	propext,Classical.choice,Quot.sound
WFMath.C100_in_segment	propext,Classical.choice,Quot.sound
WFMath.C101_corner_partial	propext,Classical.choice,Quot.sound
WFMath.C101_false	propext,Classical.choice,Quot.sound
WFMath.C101_contains_partial	propext,Classical.choice,Quot.sound
WFMath.C101_contains_false	propext,Classical.choice,Quot.sound
WFMath.C102_point	propext,Classical.choice,Quot.sound
WFMath.C102_segment	propext,Classical.choice,Quot.sound
WFMath.C102_polygon	propext,Classical.choice,Quot.sound
WFMath.C103_plane_partial	propext,Classical.choice,Quot.sound
WFMath.C103_off_plane	propext,Classical.choice,Quot.sound
WFMath.C103_near	propext,Classical.choice,Quot.sound
WFMath.C103_origin_false	propext,Classical.choice,Quot.sound
WFMath.C103_false	propext,Classical.choice,Quot.sound
WFMath.C104_never_false	propext,Classical.choice,Quot.sound
WFMath.C104_rejects_partial	propext,Classical.choice,Quot.sound
WFMath.C104_false	propext,Classical.choice,Quot.sound
WFMath.C105_accepts	propext,Classical.choice,Quot.sound
WFMath.C105_rejects	propext,Classical.choice,Quot.sound
WFMath.C105_contains	propext,Classical.choice,Quot.sound
WFMath.C106_normal_partial	propext,Classical.choice,Quot.sound
WFMath.C106_space_partial	propext,Classical.choice,Quot.sound
WFMath.C106_flat	propext,Classical.choice,Quot.sound
WFMath.C106_contains	propext,Classical.choice,Quot.sound
WFMath.C106_false	propext,Classical.choice,Quot.sound
WFMath.C107_sound_partial	propext,Classical.choice,Quot.sound
WFMath.C107_false	propext,Classical.choice,Quot.sound
WFMath.C107_contains	propext,Classical.choice,Quot.sound
WFMath.C107_contains_false	propext,Classical.choice,Quot.sound
WFMath.C107_rotbox_partial	propext,Classical.choice,Quot.sound
WFMath.C107_rotbox_contains	propext,Classical.choice,Quot.sound
WFMath.C108_axes_partial	propext,Classical.choice,Quot.sound
WFMath.C108_false	propext,Classical.choice,Quot.sound
WFMath.C109_box	propext,Classical.choice,Quot.sound
WFMath.C109_ball	propext,Classical.choice,Quot.sound
WFMath.C109_segment	propext,Classical.choice,Quot.sound
WFMath.C109_corners	propext,Classical.choice,Quot.sound
WFMath.C109_polygon	propext,Classical.choice,Quot.sound
WFMath.C109_polygon_self	propext,Classical.choice,Quot.sound
WFMath.C109_rotbox	propext,Classical.choice,Quot.sound
WFMath.C110_position_false	propext,Classical.choice,Quot.sound
WFMath.C110_oblique_partial	propext,Classical.choice,Quot.sound
WFMath.C110_perpendicular_false	propext,Classical.choice,Quot.sound
WFMath.C110_false	propext,Classical.choice,Quot.sound
WFMath.C110_line_partial	propext,Classical.choice,Quot.sound
WFMath.C110_lines	propext,Classical.choice,Quot.sound
WFMath.C110_line_first_partial	propext,Classical.choice,Quot.sound
WFMath.C110_empty	propext,Classical.choice,Quot.sound
WFMath.C110_single	propext,Classical.choice,Quot.sound
WFMath.C110_single_false	propext,Classical.choice,Quot.sound
WFMath.C111_position_false	propext,Classical.choice,Quot.sound
WFMath.C111_oblique_partial	propext,Classical.choice,Quot.sound
WFMath.C111_false	propext,Classical.choice,Quot.sound
WFMath.C111_perpendicular	propext,Classical.choice,Quot.sound
WFMath.C111_empty	propext,Classical.choice,Quot.sound
WFMath.C111_single	propext,Classical.choice,Quot.sound
WFMath.C111_single_false	propext,Classical.choice,Quot.sound
WFMath.C112_accepts	propext,Classical.choice,Quot.sound
WFMath.C112_rejects	propext,Classical.choice,Quot.sound
WFMath.C112_tolerant_false	propext,Classical.choice,Quot.sound
WFMath.C113_false	propext,Classical.choice,Quot.sound
WFMath.C113_running_partial	propext,Classical.choice,Quot.sound
WFMath.C114_equal	propext,Classical.choice,Quot.sound
WFMath.C114_equal_arrays	propext,Classical.choice,Quot.sound
WFMath.C114_box_proper	propext,Classical.choice,Quot.sound
WFMath.C114_box	propext,Classical.choice,Quot.sound
WFMath.C115_rand	propext,Classical.choice,Quot.sound
WFMath.C115_rand_float	propext,Classical.choice,Quot.sound
WFMath.C115_rand_float_not_injective	propext,Classical.choice,Quot.sound
WFMath.C116_back	propext,Classical.choice,Quot.sound
WFMath.C116_length	propext,Classical.choice,Quot.sound
WFMath.C116_normalize	propext,Classical.choice,Quot.sound
WFMath.C116_distance	propext,Classical.choice,Quot.sound
WFMath.C116_move	propext,Classical.choice,Quot.sound
WFMath.C117_vector	propext,Classical.choice,Quot.sound
WFMath.C117_products	propext,Classical.choice,Quot.sound
WFMath.C118_dot	propext,Classical.choice,Quot.sound
WFMath.C118_perpendicular	propext,Classical.choice,Quot.sound
WFMath.C118_perpendicular_false	propext,Classical.choice,Quot.sound
WFMath.C118_cross	propext,Classical.choice,Quot.sound
WFMath.C119_point	propext,Classical.choice,Quot.sound
WFMath.C119_box	propext,Classical.choice,Quot.sound
WFMath.C119_contains_box	propext,Classical.choice,Quot.sound
WFMath.C119_box_contains	propext,Classical.choice,Quot.sound
WFMath.C119_balls	propext,Classical.choice,Quot.sound
WFMath.C119_contains_ball	propext,Classical.choice,Quot.sound
WFMath.C120_midpoint	propext,Classical.choice,Quot.sound
WFMath.C120_center	propext,Classical.choice,Quot.sound
WFMath.C120_between	propext,Classical.choice,Quot.sound
WFMath.C120_shift	propext,Classical.choice,Quot.sound
WFMath.C121_ball_box	propext,Classical.choice,Quot.sound
WFMath.C121_sphere_partial	propext,Classical.choice,Quot.sound
WFMath.C121_sphere_contains	propext,Classical.choice,Quot.sound
WFMath.C121_false	propext,Classical.choice,Quot.sound
WFMath.C122_unit	propext,Classical.choice,Quot.sound
WFMath.C122_product	propext,Classical.choice,Quot.sound
WFMath.C122_running	propext,Classical.choice,Quot.sound
WFMath.C123_rotate	propext,Classical.choice,Quot.sound
WFMath.C123_isometry	propext,Classical.choice,Quot.sound
WFMath.C123_compose	propext,Classical.choice,Quot.sound
WFMath.C124_vector	propext,Classical.choice,Quot.sound
WFMath.C124_product	propext,Classical.choice,Quot.sound
WFMath.C124_chain	propext,Classical.choice,Quot.sound
WFMath.C125_matrix	propext,Classical.choice,Quot.sound
WFMath.C125_quaternion	propext,Classical.choice,Quot.sound
WFMath.C125_about	propext,Classical.choice,Quot.sound
WFMath.C125_about_quaternion	propext,Classical.choice,Quot.sound
WFMath.C126_mean	propext,Classical.choice,Quot.sound
WFMath.C126_single	propext,Classical.choice,Quot.sound
WFMath.C126_weighted	propext,Classical.choice,Quot.sound
WFMath.C126_false	propext,Classical.choice,Quot.sound
WFMath.C127_seeds	propext,Classical.choice,Quot.sound
WFMath.C127_window	propext,Classical.choice,Quot.sound
WFMath.C127_alive	propext,Classical.choice,Quot.sound
WFMath.C127_low_bits	propext,Classical.choice,Quot.sound
WFMath.C128_seed	propext,Classical.choice,Quot.sound
WFMath.C128_works	propext,Classical.choice,Quot.sound
WFMath.C128_changes	propext,Classical.choice,Quot.sound
WFMath.C128_false	propext,Classical.choice,Quot.sound
WFMath.C129_length	propext,Classical.choice,Quot.sound
WFMath.C129_dim2_partial	propext,Classical.choice,Quot.sound
WFMath.C129_dim3_partial	propext,Classical.choice,Quot.sound
WFMath.C129_box	propext,Classical.choice,Quot.sound
WFMath.C129_segment	propext,Classical.choice,Quot.sound
WFMath.C129_false	propext,Classical.choice,Quot.sound
WFMath.C130_plane	propext,Classical.choice,Quot.sound
WFMath.C130_vector	propext,Classical.choice,Quot.sound
WFMath.C130_axis	propext,Classical.choice,Quot.sound
WFMath.C130_length	propext,Classical.choice,Quot.sound
WFMath.C130_index	propext,Classical.choice,Quot.sound
WFMath.C130_matrix	propext,Classical.choice,Quot.sound
WFMath.C130_agree	propext,Classical.choice,Quot.sound
WFMath.C130_rotate	propext,Classical.choice,Quot.sound
WFMath.C131_convert_partial	propext,Classical.choice,Quot.sound
WFMath.C131_wrong	propext,Classical.choice,Quot.sound
WFMath.C131_roundtrip_partial	propext,Classical.choice,Quot.sound
WFMath.C131_rotate_partial	propext,Classical.choice,Quot.sound
WFMath.C131_false	propext,Classical.choice,Quot.sound
WFMath.C131_young	propext,Classical.choice,Quot.sound
WFMath.C131_old_partial	propext,Classical.choice,Quot.sound
WFMath.C132_vectors	propext,Classical.choice,Quot.sound
WFMath.C132_points	propext,Classical.choice,Quot.sound
WFMath.C132_shapes	propext,Classical.choice,Quot.sound
WFMath.C132_rotations	propext,Classical.choice,Quot.sound
WFMath.C132_rotated_boxes	propext,Classical.choice,Quot.sound
WFMath.C132_built	propext,Classical.choice,Quot.sound
WFMath.C133_periodic	propext,Classical.choice,Quot.sound
WFMath.C133_seeded	propext,Classical.choice,Quot.sound
WFMath.C133_first	propext,Classical.choice,Quot.sound
WFMath.C134_box_backward	propext,Classical.choice,Quot.sound
WFMath.C134_box	propext,Classical.choice,Quot.sound
WFMath.C134_ball_sound	propext,Classical.choice,Quot.sound
WFMath.C134_ball_complete	propext,Classical.choice,Quot.sound
WFMath.C134_in_box	propext,Classical.choice,Quot.sound
WFMath.C134_in_ball	propext,Classical.choice,Quot.sound
WFMath.C134_holds	propext,Classical.choice,Quot.sound
WFMath.C134_holds_near	propext,Classical.choice,Quot.sound
WFMath.C134_point_on	propext,Classical.choice,Quot.sound
WFMath.C134_point_near	propext,Classical.choice,Quot.sound
WFMath.C134_point_near_tolerant	propext,Classical.choice,Quot.sound
WFMath.C135_point	propext,Classical.choice,Quot.sound
WFMath.C135_corner	propext,Classical.choice,Quot.sound
WFMath.C135_bounding_box	propext,Classical.choice,Quot.sound
WFMath.C135_bounding_sphere	propext,Classical.choice,Quot.sound
WFMath.C135_in_box	propext,Classical.choice,Quot.sound
WFMath.C135_contains_box	propext,Classical.choice,Quot.sound
WFMath.C135_plane	propext,Classical.choice,Quot.sound
WFMath.C135_segment	propext,Classical.choice,Quot.sound
WFMath.C135_contains_segment	propext,Classical.choice,Quot.sound
WFMath.C135_ball	propext,Classical.choice,Quot.sound
WFMath.C135_ball_contains	propext,Classical.choice,Quot.sound
WFMath.C135_contains_ball	propext,Classical.choice,Quot.sound
WFMath.C135_rotate	propext,Classical.choice,Quot.sound
WFMath.C135_contains_rotated	propext,Classical.choice,Quot.sound
WFMath.C135_plane_rotated	propext,Classical.choice,Quot.sound
WFMath.C135_space	propext,Classical.choice,Quot.sound
WFMath.C135_space_rotated	propext,Classical.choice,Quot.sound
WFMath.C136_point	propext,Classical.choice,Quot.sound
WFMath.C136_side	propext,Classical.choice,Quot.sound
WFMath.C136_side_false	propext,Classical.choice,Quot.sound
WFMath.C136_box	propext,Classical.choice,Quot.sound
WFMath.C136_in_box	propext,Classical.choice,Quot.sound
WFMath.C136_in_point	propext,Classical.choice,Quot.sound
WFMath.C136_in_ball	propext,Classical.choice,Quot.sound
WFMath.C136_ball	propext,Classical.choice,Quot.sound
WFMath.C136_ball_converse	propext,Classical.choice,Quot.sound
WFMath.C137_drift_plane_partial	propext,Classical.choice,Quot.sound
WFMath.C137_drift_space_partial	propext,Classical.choice,Quot.sound
WFMath.C137_plane_partial	propext,Classical.choice,Quot.sound
WFMath.C137_space_partial	propext,Classical.choice,Quot.sound
WFMath.C137_false	propext,Classical.choice,Quot.sound
WFMath.C137_product_false	propext,Classical.choice,Quot.sound
WFMath.C138_accepts	propext,Classical.choice,Quot.sound
WFMath.C138_refuses	propext,Classical.choice,Quot.sound
WFMath.C138_orthogonal	propext,Classical.choice,Quot.sound
WFMath.C138_parity_plane	propext,Classical.choice,Quot.sound
WFMath.C138_parity_space_partial	propext,Classical.choice,Quot.sound
WFMath.C138_false	propext,Classical.choice,Quot.sound
WFMath.C138_improves_plane_partial	propext,Classical.choice,Quot.sound
WFMath.C139_mirror	propext,Classical.choice,Quot.sound
WFMath.C139_false	propext,Classical.choice,Quot.sound
WFMath.C139_nan_false	propext,Classical.choice,Quot.sound
WFMath.C139_quat_false	propext,Classical.choice,Quot.sound
WFMath.C139_fromTo_partial	propext,Classical.choice,Quot.sound
WFMath.C139_opposite	propext,Classical.choice,Quot.sound
WFMath.C139_plane_partial	propext,Classical.choice,Quot.sound
WFMath.C139_quat_partial	propext,Classical.choice,Quot.sound
WFMath.C140_fail	propext,Classical.choice,Quot.sound
WFMath.C140_corners	propext,Classical.choice,Quot.sound
WFMath.C140_basis	propext,Classical.choice,Quot.sound
WFMath.C140_angle	propext,Classical.choice,Quot.sound
WFMath.C140_default	propext,Classical.choice,Quot.sound
WFMath.C140_first	propext,Classical.choice,Quot.sound
WFMath.C140_accept	propext,Classical.choice,Quot.sound
WFMath.C141_quaternion	propext,Classical.choice,Quot.sound
WFMath.C141_coords	propext,Classical.choice,Quot.sound
WFMath.C141_quaternion_coords	propext,Classical.choice,Quot.sound
WFMath.C141_box_frame	propext,Classical.choice,Quot.sound
WFMath.C141_shift	propext,Classical.choice,Quot.sound
WFMath.C141_move_corner	propext,Classical.choice,Quot.sound
WFMath.C141_move_center	propext,Classical.choice,Quot.sound
WFMath.C141_rotate	propext,Classical.choice,Quot.sound
WFMath.C141_rotate_corner	propext,Classical.choice,Quot.sound
WFMath.C141_rotate_center	propext,Classical.choice,Quot.sound
WFMath.C141_rotbox_move	propext,Classical.choice,Quot.sound
WFMath.C141_rotbox_rotate	propext,Classical.choice,Quot.sound
WFMath.C142_mag_partial	propext,Classical.choice,Quot.sound
WFMath.C142_normalize_partial	propext,Classical.choice,Quot.sound
WFMath.C142_distance_partial	propext,Classical.choice,Quot.sound
WFMath.C142_ball_partial	propext,Classical.choice,Quot.sound
WFMath.C142_equal_partial	propext,Classical.choice,Quot.sound
WFMath.C142_large	propext,Classical.choice,Quot.sound
WFMath.C142_small	propext,Classical.choice,Quot.sound
WFMath.C142_distant	propext,Classical.choice,Quot.sound
WFMath.C142_large_ball	propext,Classical.choice,Quot.sound
WFMath.C142_false	propext,Classical.choice,Quot.sound
WFMath.C142_length_partial	propext,Classical.choice,Quot.sound
WFMath.C142_near_partial	propext,Classical.choice,Quot.sound
WFMath.C142_same	propext,Classical.choice,Quot.sound
WFMath.C142_number	propext,Classical.choice,Quot.sound
WFMath.C142_product_partial	propext,Classical.choice,Quot.sound
WFMath.C142_unit_partial	propext,Classical.choice,Quot.sound
WFMath.C142_number_partial	propext,Classical.choice,Quot.sound
WFMath.C142_dot_partial	propext,Classical.choice,Quot.sound
WFMath.C142_box	propext,Classical.choice,Quot.sound
WFMath.C142_matrix	propext,Classical.choice,Quot.sound
WFMath.C142_quaternion	propext,Classical.choice,Quot.sound
WFMath.C143_equal_partial	propext,Classical.choice,Quot.sound
WFMath.C143_vector	propext,Classical.choice,Quot.sound
WFMath.C143_matrix	propext,Classical.choice,Quot.sound
WFMath.C143_quaternion	propext,Classical.choice,Quot.sound
WFMath.C143_mag_partial	propext,Classical.choice,Quot.sound
WFMath.C143_distance	propext,Classical.choice,Quot.sound
WFMath.C143_shapes	propext,Classical.choice,Quot.sound
WFMath.C143_false	propext,Classical.choice,Quot.sound
WFMath.C144_frames	propext,Classical.choice,Quot.sound
WFMath.C144_box_frames	propext,Classical.choice,Quot.sound
WFMath.C144_quaternion_corner_partial	propext,Classical.choice,Quot.sound
WFMath.C144_quaternion_center_partial	propext,Classical.choice,Quot.sound
WFMath.C144_rotbox_frames	propext,Classical.choice,Quot.sound
WFMath.C144_quaternion_frames_partial	propext,Classical.choice,Quot.sound
WFMath.C144_center	propext,Classical.choice,Quot.sound
WFMath.C144_false	propext,Classical.choice,Quot.sound
WFMath.C144_frames_false	propext,Classical.choice,Quot.sound
WFMath.C144_built	propext,Classical.choice,Quot.sound
WFMath.C144_shift	propext,Classical.choice,Quot.sound
WFMath.C144_move_corner	propext,Classical.choice,Quot.sound
WFMath.C144_move_center	propext,Classical.choice,Quot.sound
WFMath.C144_rotate	propext,Classical.choice,Quot.sound
WFMath.C144_quaternion	propext,Classical.choice,Quot.sound
WFMath.C144_rotate_corner	propext,Classical.choice,Quot.sound
WFMath.C144_rotate_center	propext,Classical.choice,Quot.sound
WFMath.C145_frames	propext,Classical.choice,Quot.sound
WFMath.C145_box_frames	propext,Classical.choice,Quot.sound
WFMath.C145_rotbox_center	propext,Classical.choice,Quot.sound
WFMath.C145_barycenter_partial	propext,Classical.choice,Quot.sound
WFMath.C145_false	propext,Classical.choice,Quot.sound
WFMath.C145_sum	propext,Classical.choice,Quot.sound
WFMath.C145_scale	propext,Classical.choice,Quot.sound
WFMath.C145_midpoint	propext,Classical.choice,Quot.sound
WFMath.C145_midpoint_false	propext,Classical.choice,Quot.sound
WFMath.C145_rotate	propext,Classical.choice,Quot.sound
WFMath.C145_quaternion	propext,Classical.choice,Quot.sound
WFMath.C145_quaternion_frames	propext,Classical.choice,Quot.sound
WFMath.C145_between	propext,Classical.choice,Quot.sound
WFMath.C146_construct_partial	propext,Classical.choice,Quot.sound
WFMath.C146_large	propext,Classical.choice,Quot.sound
WFMath.C146_small	propext,Classical.choice,Quot.sound
WFMath.C146_atlas_partial	propext,Classical.choice,Quot.sound
WFMath.C146_false	propext,Classical.choice,Quot.sound
WFMath.C146_axis_partial	propext,Classical.choice,Quot.sound
WFMath.C146_axis_large	propext,Classical.choice,Quot.sound
WFMath.C147_quaternion	propext,Classical.choice,Quot.sound
WFMath.C147_quaternion_frames	propext,Classical.choice,Quot.sound
WFMath.C147_parent	propext,Classical.choice,Quot.sound
WFMath.C147_local_partial	propext,Classical.choice,Quot.sound
WFMath.C147_box_frame	propext,Classical.choice,Quot.sound
WFMath.C147_false	propext,Classical.choice,Quot.sound
WFMath.C148_point	propext,Classical.choice,Quot.sound
WFMath.C148_overlap	propext,Classical.choice,Quot.sound
WFMath.C148_inside	propext,Classical.choice,Quot.sound
WFMath.C148_union	propext,Classical.choice,Quot.sound
WFMath.C148_intersection	propext,Classical.choice,Quot.sound
WFMath.C148_bounding	propext,Classical.choice,Quot.sound
WFMath.C148_corners	propext,Classical.choice,Quot.sound
WFMath.C148_nan	propext,Classical.choice,Quot.sound
WFMath.C149_built	propext,Classical.choice,Quot.sound
WFMath.C149_outside	propext,Classical.choice,Quot.sound
WFMath.C149_inside_partial	propext,Classical.choice,Quot.sound
WFMath.C149_near	propext,Classical.choice,Quot.sound
WFMath.C149_zero_false	propext,Classical.choice,Quot.sound
WFMath.C149_false	propext,Classical.choice,Quot.sound
WFMath.C149_ball	propext,Classical.choice,Quot.sound
WFMath.C150_encloses	propext,Classical.choice,Quot.sound
WFMath.C150_touches	propext,Classical.choice,Quot.sound
WFMath.C150_tight	propext,Classical.choice,Quot.sound
WFMath.C150_equal	propext,Classical.choice,Quot.sound
WFMath.C150_pair	propext,Classical.choice,Quot.sound
WFMath.C150_checked	propext,Classical.choice,Quot.sound
WFMath.C150_pair_returns	propext,Classical.choice,Quot.sound
WFMath.C150_false	propext,Classical.choice,Quot.sound
WFMath.C151_yes	propext,Classical.choice,Quot.sound
WFMath.C151_no	propext,Classical.choice,Quot.sound
WFMath.C151_inside	propext,Classical.choice,Quot.sound
WFMath.C152_meets	propext,Classical.choice,Quot.sound
WFMath.C152_found	propext,Classical.choice,Quot.sound
WFMath.C152_missed	propext,Classical.choice,Quot.sound
WFMath.C152_answers	propext,Classical.choice,Quot.sound
WFMath.C152_false	propext,Classical.choice,Quot.sound
WFMath.C153_box	propext,Classical.choice,Quot.sound
WFMath.C153_built	propext,Classical.choice,Quot.sound
WFMath.C153_turned	propext,Classical.choice,Quot.sound
WFMath.C154_normal	propext,Classical.choice,Quot.sound
WFMath.C154_apart	propext,Classical.choice,Quot.sound
WFMath.C154_through	propext,Classical.choice,Quot.sound
WFMath.C154_found	propext,Classical.choice,Quot.sound
WFMath.C154_false	propext,Classical.choice,Quot.sound
WFMath.C155_on	propext,Classical.choice,Quot.sound
WFMath.C155_near	propext,Classical.choice,Quot.sound
WFMath.C155_box	propext,Classical.choice,Quot.sound
WFMath.C155_space	propext,Classical.choice,Quot.sound
WFMath.C155_space_empty	propext,Classical.choice,Quot.sound
WFMath.C156_rotbox	propext,Classical.choice,Quot.sound
WFMath.C156_empty	propext,Classical.choice,Quot.sound
WFMath.C156_stable	propext,Classical.choice,Quot.sound
WFMath.C157_rotate	propext,Classical.choice,Quot.sound
WFMath.C157_shift	propext,Classical.choice,Quot.sound
WFMath.C157_parent	propext,Classical.choice,Quot.sound
WFMath.C157_local	propext,Classical.choice,Quot.sound
WFMath.C158_history	propext,Classical.choice,Quot.sound
WFMath.C158_turns	propext,Classical.choice,Quot.sound
WFMath.C159_distance	propext,Classical.choice,Quot.sound
WFMath.C159_ball	propext,Classical.choice,Quot.sound
WFMath.C159_balls	propext,Classical.choice,Quot.sound
WFMath.C159_turns	propext,Classical.choice,Quot.sound
WFMath.C160_distance	propext,Classical.choice,Quot.sound
WFMath.C160_meet	propext,Classical.choice,Quot.sound
WFMath.C160_in_ball	propext,Classical.choice,Quot.sound
WFMath.C160_point	propext,Classical.choice,Quot.sound
WFMath.C160_turns	propext,Classical.choice,Quot.sound
WFMath.C161_ball	propext,Classical.choice,Quot.sound
WFMath.C161_ball_converse	propext,Classical.choice,Quot.sound
WFMath.C161_in_ball	propext,Classical.choice,Quot.sound
WFMath.C162_barycenter	propext,Classical.choice,Quot.sound
WFMath.C162_polygon	propext,Classical.choice,Quot.sound
WFMath.C163_sphere	propext,Classical.choice,Quot.sound
WFMath.C163_sloppy	propext,Classical.choice,Quot.sound
WFMath.C164_point	propext,Classical.choice,Quot.sound
WFMath.C164_ball	propext,Classical.choice,Quot.sound
WFMath.C164_segment	propext,Classical.choice,Quot.sound
WFMath.C164_turns	propext,Classical.choice,Quot.sound
WFMath.C165_corners	propext,Classical.choice,Quot.sound
WFMath.C165_region	propext,Classical.choice,Quot.sound
WFMath.C166_corners	propext,Classical.choice,Quot.sound
