# Axioms of the theorems in MANIFEST.json

Output of `#print axioms` for every theorem named in MANIFEST.json, grouped.

## no axioms (12 theorems)

`Cdll.C07_remove_only_refuted`, `Cdll.C07_remove_missing_refuted`, `Cdll.C07_negative_index_refuted`, `Ccx.C229_dispatch_partial`, `Ccx.C229_implicit_refuted`, `Ccx.C229_order_refuted`, `Apc.C308_circle_partial`, `Tes.C314_counts_partial`, `NCache.C37_pure`, `Nst.C413_hash_refuted`, `Acl.C458_changes_refuted`, `Acl.C458_index_refuted`

## propext (39 theorems)

`UnionFind.C02_find_out_of_range`, `Avl.C06_overwrite_refuted`, `Avl.C06_delete_refuted`, `Avl.C06_append_refuted`, `KdTree.C09_delete_misses_refuted`, `KdTree.C10_too_few_refuted`, `KdTree.C10_nonpositive`, `Implicit.C103_cache_partial`, `Step.Parse.C108_empty_refuted`, `RTree.C11_misses_refuted`, `Brep.C111_loop_refuted`, `Sort.C14_emplace_single_refuted`, `Rtn.C300_add`, `Rtn.C302_matrix`, `Rtn.C302_vector_partial`, `Apc.C308_create_refuted`, `Tri.C361_no_comment`, `Tri.C361_comment`, `Tri.C361_last_refuted`, `NCache.C37_degree_refuted`, `NCache.C37_view_refuted`, `NCache.C37_result_refuted`, `NCache.C37_shared_refuted`, `Serial.C38_deterministic_refuted`, `Crd.C391_local_refuted`, `Gjk.Py.C395_empty`, `Poly.C409_others_refuted`, `ApiBox.C50_contains_plane`, `ApiBox.C50_contains_partial`, `ApiBox.C50_contains_refuted`, `ApiBox.C50_copy_partial`, `ApiBox.C50_copy_refuted`, `ApiBox.C50_copy_plane_refuted`, `ApiBox.C50_expand`, `ApiBox.C50_intersects`, `ApiBox.C50_intersects_plane`, `ApiBox.C50_union`, `KdTree.C51_nearest_after_delete_refuted`, `ImplTree.C80_closest_refuted`

## propext, Quot.sound (335 theorems)

`Cdll.C07_insert_front_refuted`, `Cdll.C07_iter_empty_refuted`, `Cdll.C07_replace_then_remove_refuted`, `ApiBox.C100_plane_partial`, `Implicit.C103_repr_refuted`, `Step.Parse.C108_total`, `Step.Parse.C108_string_refuted`, `Brep.C110_face_partial`, `Brep.C110_face_refuted`, `Brep.C110_face_raises`, `Brep.C111_vertices`, `Brep.C111_shared`, `Serial.C112_pickle_partial`, `Serial.C112_pickle_refuted`, `Bez.C113_table`, `Bez.C113_range_refuted`, `ApiMat.C116_roundtrip_iff`, `ApiMat.C116_roundtrip_refuted`, `ApiMat.C116_align_refuted`, `ApiMat.C119_system_refuted`, `Sort.C12_quicksort_sorts`, `Sort.C12_range_untouched_outside`, `ApiMat.C120_inplace_refuted`, `ApiMat.C120_inplace_partial`, `ApiMat.C120_subtract`, `ApiMat.C122_cast2`, `ApiMat.C122_cast2_refuted`, `NDer.C126_refuted`, `NSDer.C127_end_refuted`, `NSDer.C127_end_v_refuted`, `NSDer.C129_last_order_refuted`, `NSDer.C129_buffer_refuted`, `Sort.C13_argsort_sorts`, `Integ.C139_empty`, `Sort.C14_unique`, `Sort.C14_emplace_partial`, `Fdm.C143_float_partial`, `Interval.C15_sub_partial`, `Newt.C155_constraint_refuted`, `Interval.C16_and_or`, `Aabb.C17_aabb_smallest`, `Aabb.C18_intersect_symm`, `Aabb.C18_intersection_box`, `Aabb.C18_point_in_aabb`, `Deb.C194_first_partial`, `Poly.C21_chord`, `Mol.C214_serial`, `Mol.C214_first`, `Mol.C214_flag_refuted`, `Boo.C217_select`, `Boo.C217_partition`, `Boo.C217_unknown`, `Boo.C217_disjoint_refuted`, `Gm.C232_separate_refuted`, `Gm.C235_degenerate_refuted`, `Knot.C242_gap_refuted`, `Knot.C248_rejects`, `Knot.C248_few_points_refuted`, `Knot.C248_decreasing_refuted`, `Knot.C249_find_knot_span`, `Knot.C249_outside_refuted`, `Knot.C249_binsearch_partial`, `Knot.C249_binsearch_end`, `Bvh.C25_build_empty`, `Knot.C250_duplicates_partial`, `Knot.C250_chain_refuted`, `Knot.C250_repeat_refuted`, `Knot.C252_knots_refuted`, `Knot.C252_gap_refuted`, `Knot.C252_weights_refuted`, `Csx.C253_sound`, `Csx.C255_end_refuted`, `Csx.C255_short_refuted`, `Csx.C256_empty_refuted`, `Csx.C256_apart_refuted`, `Csx.C256_bounds`, `Csx.C257_range`, `Csx.C258_start_params`, `Csx.C258_dedup`, `Csx.C258_find`, `Csx.C260_wedges_refuted`, `Csx.C260_circles_refuted`, `Csx.C260_empty`, `Pinv.C261_previous_refuted`, `Pinv.C261_inversion_partial`, `Pinv.C262_previous_refuted`, `Pinv.C262_inversion_partial`, `Pinv.C263_zero_refuted`, `Pinv.C263_inversion_partial`, `Ssx.C265_pop_partial`, `Ssx.C268_missed_refuted`, `Bvh.C27_breadth_partial`, `Srf.C271_agree`, `Srf.C271_bilinear`, `Srf.C271_blossom`, `Srf.C272_edges_partial`, `Srf.C272_compiled`, `Srf.C272_edges_refuted`, `Srf.C273_boundary_partial`, `Srf.C273_meet`, `Srf.C273_bilinear`, `Srf.C273_boundary_refuted`, `Srf.C274_isocurve_partial`, `Srf.C274_v_refuted`, `Srf.C274_isoline`, `Srf.C274_isoline_range`, `Srf.C278_linear_map_partial`, `Bvh.C28_expand_partial`, `Bvh.C28_stale_all_refuted`, `Crv.C281_split_partial`, `Crv.C281_second_refuted`, `Crv.C281_ends_refuted`, `Crv.C281_ends_partial`, `Crv.C282_node`, `Crv.C282_empty_refuted`, `Crv.C285_queries_partial`, `Crv.C285_t0_refuted`, `Crv.C288_circle_refuted`, `Swl.C291_raises`, `Swl.C294_copies_refuted`, `Swl.C296_ring`, `Rtn.C297_min`, `Rtn.C297_max`, `Rtn.C297_argument_refuted`, `Rtn.C297_similar`, `ImplTree.C30_corners`, `ImplTree.C30_corners3`, `Rtn.C300_split`, `Rtn.C300_negative`, `Rtn.C300_roundtrip`, `Rtn.C301_flatten`, `Rtn.C302_vector_refuted`, `Apc.C303_none`, `Apc.C307_nested`, `Apc.C308_touch_refuted`, `Apc.C309_arguments_refuted`, `Apc.C309_error_refuted`, `Apc.C310_dot_refuted`, `Tes.C312_ring`, `Tes.C314_first_refuted`, `Tes.C314_default_refuted`, `Tes.C315_segments_partial`, `Tes.C315_raises_refuted`, `Tes.C316_vertices_partial`, `Opt.C317_open_partial`, `Opt.C317_polygon_refuted`, `Opt.C320_objective`, `Opt.C321_offset_refuted`, `Opt.C325_scalar_partial`, `Opt.C325_array_refuted`, `Opt.C326_product`, `Nurbs.C33_find_span`, `Ppx.C331_first_partial`, `Ppx.C331_freeform_refuted`, `Ppx.C331_marching_refuted`, `Ppx.C331_endless_refuted`, `Ppx.C332_unit_partial`, `Ppx.C332_interval_refuted`, `Dc.C341_many_refuted`, `Dc.C342_values`, `Dc.C342_numbers`, `Dc.C342_mixed`, `Dc.C342_argument_refuted`, `Dc.C343_endless_refuted`, `Dc.C349_vertical_partial`, `Dc.C349_ring_refuted`, `Dc.C350_fold`, `Dc.C350_trav`, `Dc.C350_filter_refuted`, `Dc.C350_full`, `Dc.C350_empty`, `Bsu.C355_find_span`, `Bsu.C355_outside`, `Bsu.C356_end_refuted`, `Bsu.C360_find_span`, `Bsu.C360_unclamped_refuted`, `Tri.C362_node`, `Tri.C363_triangles`, `Tri.C363_alone_refuted`, `Tri.C365_zero_partial`, `Tri.C365_refuted`, `Tri.C366_inside_row_partial`, `Tri.C366_truncated_refuted`, `Tri.C367_edges_partial`, `Tri.C367_comment_refuted`, `Tri.C368_consistent_partial`, `Tri.C369_rename`, `Tri.C369_neighbors_refuted`, `NCache.C37_cache_partial`, `NCache.C37_edit`, `NCache.C37_copy_refuted`, `Col.C370_decimal`, `Col.C370_injective`, `Serial.C38_roundtrip_partial`, `Serial.C38_injective_partial`, `Serial.C38_rejects`, `Serial.C38_length`, `Serial.C38_truncated_refuted`, `Serial.C38_columns_refuted`, `Serial.C38_strided_refuted`, `Rfn.C381_list_partial`, `Rfn.C382_tolerance_refuted`, `Rfn.C385_split_partial`, `Rfn.C385_split_refuted`, `Crd.C389_planes_refuted`, `Crd.C389_short_refuted`, `Nurbs.C39_reverse_involutive_partial`, `Crd.C392_refuted`, `Crd.C393_support`, `Crd.C393_jacobian_refuted`, `Clp.op_empty`, `Fdm.C406_gradient`, `Fdm.C406_hessian`, `Fdm.C407_singular_refuted`, `Nst.C410_interval_partial`, `Nst.C410_greville_partial`, `Nst.C410_insert_refuted`, `Nst.C410_degree_refuted`, `Nst.C410_set_refuted`, `Nst.C410_shared_refuted`, `Nst.C410_make_periodic`, `Nst.C410_make_periodic_refuted`, `Nst.C411_equal_partial`, `Nst.C411_stale_refuted`, `Nst.C412_interval_partial`, `Nst.C414_views_partial`, `Nst.C414_dangling_refuted`, `Cbb.C416_default_refuted`, `Epl.C420_default_refuted`, `Sic.C422_skips_refuted`, `Swl.C423_scan`, `Sph.C424_repeated_refuted`, `Sph.C424_point_refuted`, `Sph.C425_pole_refuted`, `Nsp.C431_open_refuted`, `Nsp.C432_partial`, `Nsp.C433_number_refuted`, `Edg.C435_single_refuted`, `Edg.C436_partial`, `Edg.C436_refuted`, `Edg.C436_check_refuted`, `Edg.C436_unhashable_iff`, `Edg.C437_partial`, `Edg.C437_nurbs_refuted`, `Edg.C437_smallest_partial`, `Fea.C438_sound`, `Fea.C438_repeated_refuted`, `Fea.C438_tol_refuted`, `Fea.C438_empty_refuted`, `Fea.C438_default_refuted`, `Fea.C438_tree`, `Fea.C439_partial`, `Fea.C439_chain`, `Fea.C439_refuted`, `Frm.C440_refuted`, `Ssr.C444_loop_refuted`, `Ssr.C444_partial`, `Ssr.C445_empty_refuted`, `Ssr.C445_outside_refuted`, `Ssr.C445_partial`, `Ras.C446_grad_refuted`, `Ras.C446_special_refuted`, `Ras.C446_partial`, `Ras.C447_refuted`, `Ras.C447_partial`, `Bvh.C448_edges`, `Bvh.C449_partial`, `Vec.C45_first_hit`, `Fdm.Pde.C450_dim_refuted`, `Fdm.Pde.C450_bounds_refuted`, `Sinv.C453_normal_refuted`, `Dqr.C454_boxes`, `Dqr.C454_tests`, `Dqr.C454_rows_refuted`, `Dqr.C455_cover_partial`, `Dqr.C455_cells_refuted`, `Acl.C457_same`, `Acl.C457_item_refuted`, `Acl.C458_cast_partial`, `Acl.C458_queries_refuted`, `Implicit.C46_bounds_exist`, `Implicit.C46_intersection2d_refuted`, `Acl.C460_reduced`, `Acl.C460_pivot_refuted`, `Msc.C462_points_refuted`, `Msc.C463_support_partial`, `Msc.C463_low_refuted`, `Msc.C465_edge_partial`, `Msc.C466_polygon_refuted`, `Icp.C467_step_partial`, `Icp.C467_limit`, `Icp.C468_step_partial`, `Icp.C470_grid_length`, `Bvh.C475_clip_expand_refuted`, `Bvh.C475_value_refuted`, `Bvh.C475_valid`, `Bvh.C475_contains`, `Sinv.C476_batch_single_partial`, `Sinv.C476_rectangle`, `Kdc.C477_agrees_partial`, `Kdc.C477_order_refuted`, `Kdc.C477_spans`, `Clm.C479_space_refuted`, `Clm.C479_expand`, `Clm.C479_turn`, `Step.C48_exact`, `Ppx.C482_goes_on_iff`, `Brep.C49_index`, `Brep.C49_append`, `Brep.C49_dedup`, `Brep.C49_vertex_dedup`, `Brep.C49_unique`, `Brep.C49_same_partial`, `Brep.C49_zero_refuted`, `Brep.C49_table`, `Brep.C49_row`, `Brep.C49_loop`, `KdTree.C51_returns_stored_partial`, `Interval.C53_compare_intervals`, `Interval.C53_less_number_partial`, `Nurbs.C54_evaluate_terminates_partial`, `Nurbs.C54_find_span_hangs`, `Nurbs.C55_periodic_evaluate_partial`, `Nurbs.C63_split_ends`, `Nurbs.C69_is_periodic_partial`, `Bvh.C72_traverse_point`, `ImplTree.C74_rebuild`, `DnC.C82_single_column_partial`, `Vec.C89_aliased_refuted`, `Vec.C89_rows_refuted`, `Vec.C92_equation`, `Vec.C92_distance_refuted`, `Vec.C95_no_overlap_partial`, `Vec.C98_support`, `Vec.C99_shift`

## propext, Classical.choice, Quot.sound (1225 theorems)

`UnionFind.C01_find_eq_iff_connected`, `UnionFind.C02_find_terminates_log_depth`, `UnionFind.C03_group_tuples_components`, `Avl.C04_keys_refine_set`, `Avl.C05_balanced`, `Avl.C06_mapping_fresh_inserts_partial`, `Avl.C06_insert_keeps_others_partial`, `Cdll.C07_sequence_partial`, `KdTree.C08_nearest_is_minimal`, `KdTree.C08_wrong_dimension_rejected`, `KdTree.C09_contents_inserts_partial`, `KdTree.C09_history_partial`, `KdTree.C09_first_delete_partial`, `KdTree.C10_knn_partial`, `KdTree.C10_knn_exact_partial`, `ApiBox.C100_intersection`, `ApiBox.C100_plane_refuted`, `ApiBox.C100_plane_raises`, `ApiBox.C101_frame_partial`, `ApiBox.C101_effect_partial`, `ApiBox.C101_setter_refuted`, `Implicit.C102_gradient_partial`, `Implicit.C102_unit_refuted`, `Implicit.C102_project_partial`, `Implicit.C102_project_refuted`, `Step.C104_types`, `Step.C105_origin_partial`, `Step.C105_frame_refuted`, `Step.C106_curve_partial`, `Step.C106_weights_refuted`, `Step.C107_loop_refuted`, `Step.Parse.C108_arguments_partial`, `Step.Parse.C108_typed_refuted`, `Step.Parse.C108_escape_refuted`, `Step.Parse.C109_line_partial`, `Step.Parse.C109_digit_refuted`, `RTree.C11_sound_partial`, `RTree.C11_exact_small_partial`, `Brep.C110_edge_partial`, `Brep.C110_edge_dedup`, `Brep.C110_edge_refuted`, `Serial.C112_edit_refuted`, `Bez.C114_cross`, `Bez.C114_derivatives`, `Bez.C114_normal`, `Bez.C114_orthogonal`, `Bez.C115_rational`, `ApiMat.C116_local_refuted`, `ApiMat.C116_rows_partial`, `ApiMat.C117_fix2_iff`, `ApiMat.C117_rotate2_refuted`, `ApiMat.C117_stale_refuted`, `ApiMat.C117_rotate3_refuted`, `ApiMat.C117_rotate2_partial`, `ApiMat.C117_rotate3_partial`, `ApiMat.C118_rotateTo2`, `ApiMat.C118_rotateTo3_refuted`, `ApiMat.C118_opposite_refuted`, `ApiMat.C119_comp`, `ApiMat.C119_comp_affine`, `ApiMat.C119_inverse`, `ApiMat.C119_inverse_affine`, `ApiMat.C119_translation`, `ApiMat.C119_rotation_affine`, `ApiMat.C121_parallel_refuted`, `ApiMat.C121_parallel_false_refuted`, `ApiMat.C121_parallel_partial`, `ApiMat.C121_opposite_refuted`, `ApiMat.C121_perp_refuted`, `ApiMat.C121_angle_refuted`, `ApiMat.C121_angle_partial`, `ApiMat.C121_length_refuted`, `ApiMat.C121_transform_refuted`, `ApiMat.C122_cast3`, `ApiMat.C122_matrix_refuted`, `NDer.C123_all_basis_funs`, `NDer.C124_ders_basis_funs`, `NDer.C124_sum_zero`, `NDer.C125_derivatives`, `NDer.C125_agree`, `NDer.C125_derivative_partial`, `NDer.C125_end_partial`, `NDer.C125_interior_partial`, `NDer.C125_second`, `NDer.C125_rational_refuted`, `Spl.C338_first_partial`, `NDer.C126_control_points_partial`, `NSDer.C127_surface_derivatives_partial`, `NSDer.C128_leibniz`, `NSDer.C128_rest`, `NSDer.C128_value_partial`, `NSDer.C128_mixed_partial`, `NSDer.C128_inner_partial`, `NSDer.C129_control_points_partial`, `Sweep.C130_dict`, `Sweep.C130_lookup`, `Sweep.C131_delete_refuted`, `Sweep.C131_delete_partial`, `Sweep.C131_pred_refuted`, `Sweep.C132_locate_partial`, `Sweep.C132_locate_present_refuted`, `Sweep.C132_locate_none_refuted`, `Sweep.C133_neighbours`, `Sweep.C133_delItem`, `Sweep.C133_insertAt`, `Sweep.C133_reverse`, `Sweep.C133_locate_insertAt`, `Sweep.C133_empty_refuted`, `Lu.C134_inverse`, `Lu.C134_factors`, `Lu.C134_solve`, `Lu.C135_argument_refuted`, `Lu.C135_strides_refuted`, `Lu.C135_transpose_refuted`, `Lu.C135_contiguous_partial`, `Integ.C136_exact`, `Integ.C136_rows`, `Integ.C136_table`, `Integ.C137_accuracy_refuted`, `Integ.C137_polynomial_partial`, `Integ.C138_linear`, `Integ.C138_quadrature`, `Integ.C138_moving_frame`, `Integ.C139_result`, `Integ.C139_terminates_partial`, `Integ.C139_never_refuted`, `Integ.C139_quartic_refuted`, `Sort.C14_unique_eps`, `Integ.C140_polygon_refuted`, `Integ.C140_line_refuted`, `Integ.C140_bounds_partial`, `Integ.C141_inverse`, `Integ.C141_chord`, `Integ.C141_circle`, `Integ.C141_large_refuted`, `Fdm.C142_gradient`, `Fdm.C142_gradient_order`, `Fdm.C142_hessian_diagonal`, `Fdm.C142_hessian_mixed`, `Fdm.C142_symmetric`, `Fdm.C142_quadratic`, `Fdm.C143_argument_refuted`, `Fdm.C143_hessian_refuted`, `Fdm.C144_quadratic_partial`, `Fdm.C144_no_root_refuted`, `Fdm.C144_linear_refuted`, `Fdm.C145_total`, `Fdm.C145_minimum`, `Fdm.C145_maximum`, `Fdm.C145_saddle`, `Fdm.C146_inside_partial`, `Fdm.C146_short_refuted`, `Fdm.C147_jac_refuted`, `Fdm.C147_jac_partial`, `Fdm.C147_dzdx_refuted`, `Bisect.C148_result`, `Bisect.C148_complete`, `Bisect.C148_twice_refuted`, `Bisect.C148_missed_refuted`, `Bisect.C148_sound`, `Bisect.C149_terminates`, `Bisect.C149_inside`, `Bisect.C149_root_partial`, `Bisect.C149_lost_refuted`, `Interval.C15_add`, `Interval.C15_mul`, `Interval.C15_div`, `Interval.C15_invert`, `Interval.C15_sub_refuted`, `Interval.C15_negative_scalar_refuted`, `Interval.C15_scalar_partial`, `Interval.C15_pow_refuted`, `Interval.C15_pow_partial`, `Bisect.C150_decreasing_refuted`, `Bisect.C150_increasing_refuted`, `Bisect.C150_three_refuted`, `Bisect.C150_fine_partial`, `Bisect.C150_inner_partial`, `Bisect.C150_inside_partial`, `Newt.C151_solve`, `Newt.C152_quadratic_partial`, `Newt.C152_root_refuted`, `Newt.C152_linear_refuted`, `Newt.C153_permuted`, `Newt.C153_singular`, `Newt.C153_iff`, `Newt.C153_inverse_refuted`, `Newt.C153_system_refuted`, `Newt.C153_dominant_partial`, `Newt.C154_affine_partial`, `Newt.C154_diverges_refuted`, `Newt.C155_linear_refuted`, `Newt.C155_stationary_partial`, `Newt.C156_line_search`, `Newt.C156_strong_wolfe`, `Newt.C156_ascent`, `Newt.C156_full_step`, `Newt.C157_inside`, `Newt.C157_descent`, `Newt.C158_stuck_refuted`, `Newt.C158_outside_refuted`, `Newt.C158_interior_partial`, `Gjk.C159_support_vertex`, `Gjk.C159_support_difference`, `Interval.C16_subdivide`, `Interval.C16_evaluate`, `Gjk.C160_apart`, `Gjk.C161_collide`, `Gjk.C161_tolerance_refuted`, `Gjk.C162_small_answer`, `Gjk.C162_small_refuted`, `Gjk.C162_cycle_refuted`, `Gjk.C162_exact_partial`, `Gjk.C163_bookkeeping`, `Gjk.C164_translation`, `Gjk.C164_scale`, `Gjk.C164_lattice`, `Gjk.C165_separated`, `Gjk.C165_self_refuted`, `Gjk.C165_cycle_refuted`, `Gjk.C165_true_partial`, `Gjk.C166_plane`, `Gjk.C166_same_plane_refuted`, `Gjk.C166_strict_partial`, `Gjk.C167_triangle_distance`, `Gjk.C167_equal_corners`, `Gjk.C167_sqrt`, `Prim.C168_distance`, `Prim.C168_gradient`, `Prim.C169_bounds`, `Aabb.C17_segment_box`, `Prim.C170_distance`, `Prim.C170_gradient`, `Prim.C171_bounds_refuted`, `Prim.C171_bounds_partial`, `Prim.C172_distance`, `Prim.C172_gradient`, `Prim.C172_bounds_partial`, `Prim.C172_bounds_refuted`, `Prim.C172_unit_refuted`, `Prim.C173_on_surface`, `Prim.C173_covers`, `Prim.C174_nan`, `Prim.C174_against_x_refuted`, `Prim.C174_radius_refuted`, `Prim.C175_base_gradient`, `Dg.C176_curvature`, `Dg.C176_parameter`, `Dg.C177_circle`, `Dg.C178_frenet`, `Dg.C178_plane_curvature`, `Dg.C179_stale_refuted`, `Dg.C179_same_partial`, `Dg.C179_tangent`, `Aabb.C18_intersect_iff_common`, `Dg.C180_principal`, `Dg.C181_directions_partial`, `Dg.C181_orthogonal_refuted`, `Dg.C182_regular`, `Dg.C182_parameters`, `Dg.C182_sphere`, `Dg.C183_classify`, `Dg.C183_dupin_refuted`, `Dg.C183_surface_refuted`, `Dg.C184_indicatrix`, `Dg.C184_parabolic_refuted`, `Dg.C185_distance_refuted`, `Dg.C185_two_steps_partial`, `Dg.C185_predict_refuted`, `Dg.C186_euler`, `Dg.C187_rank`, `Dg.C187_solution_partial`, `Dg.C187_exchanged_refuted`, `Dg.C187_error_refuted`, `Dg.C188_arrays_partial`, `Dg.C188_pivot_refuted`, `Dg.C188_opposite_refuted`, `Dg.C189_sectional_partial`, `Dg.C189_sectional_refuted`, `Aabb.C19_segment_exact`, `Aabb.C19_clip_exact`, `Aabb.C19_segment_within_tol`, `Aabb.C19_ray_clamp_refuted`, `Aabb.C19_ray_partial`, `Dg.C190_regular`, `Dg.C190_success`, `Dg.C190_singular`, `Dg.C190_quadrants`, `Deb.C191_unity_partial`, `Deb.C191_knots_refuted`, `Deb.C192_evaluate`, `Deb.C192_ends`, `Deb.C193_hull`, `Deb.C194_rows_refuted`, `Circ.C195_evaluate`, `Circ.C195_implicit`, `Circ.C196_closest`, `Circ.C196_parameter_refuted`, `Circ.C196_closest_parameter_refuted`, `Circ.C197_intersection_partial`, `Circ.C197_same_refuted`, `Circ.C197_height_refuted`, `Circ.C198_tangents_refuted`, `Circ.C199_circle_partial`, `Circ.C199_origin_refuted`, `Poly.C20_point_in_polygon`, `Poly.C20_rotate`, `Poly.C20_outside`, `Poly.C20_outside_left`, `Pip.C200_sound`, `Pip.C200_boxes`, `Pip.C200_complete_partial`, `Pip.C200_collinear_refuted`, `Pip.C200_touch_refuted`, `Pip.C201_convex_partial`, `Pip.C201_closed_partial`, `Pip.C201_corner_refuted`, `Par.C202_scale_refuted`, `Par.C202_derivative_refuted`, `Par.C202_second_refuted`, `Par.C202_parabola_refuted`, `Par.C203_curvature`, `Par.C203_curvature_parabola`, `Par.C203_plane`, `Par.C203_plane_parabola`, `Par.C203_tangent_partial`, `Par.C203_slow_refuted`, `Par.C204_reparametrized_refuted`, `Par.C205_first`, `Par.C205_domain`, `Par.C205_interval_refuted`, `Par.C206_mixed`, `Par.C206_pure_partial`, `Par.C206_quadratic_refuted`, `Par.C207_plane`, `Par.C208_rows`, `Par.C208_normal`, `Par.C209_edges`, `Par.C209_derivative_v`, `Par.C209_derivative_u_partial`, `Par.C209_derivative_u_refuted`, `Par.C209_second_uu_refuted`, `Poly.C21_area_formula`, `Poly.C21_rotate`, `Poly.C21_reverse`, `Poly.C21_affine`, `Poly.C21_triangle_and_cut`, `Par.C210_corners`, `Par.C210_derivatives`, `Par.C211_bezier`, `Par.C211_derivatives`, `Par.C211_tangents`, `Mol.C212_sound`, `Mol.C212_complete`, `Mol.C212_none`, `Mol.C212_parallel_refuted`, `Mol.C212_scale_refuted`, `Mol.C212_flag`, `Mol.C213_boundary`, `Mol.C213_interior_partial`, `Mol.C213_scale_refuted`, `Mol.C215_one_by_one_partial`, `Mol.C215_race_refuted`, `Mol.C215_serial_refuted`, `Boo.C216_groups`, `Boo.C216_apart`, `Boo.C216_order`, `Boo.C216_idempotent`, `Boo.C216_near_partial`, `Boo.C216_chain_refuted`, `Boo.C217_count`, `Boo.C218_inside`, `Boo.C218_outside_partial`, `Boo.C218_far_refuted`, `Boo.C218_touch_refuted`, `Boo.C218_plane_refuted`, `March.C219_near_partial`, `March.C219_plane`, `March.C219_sphere`, `March.C219_critical_refuted`, `Poly.C22_intersect_sound`, `Poly.C22_intersect_complete`, `Poly.C22_intersect_none`, `March.C220_near_partial`, `March.C220_planes`, `March.C220_values`, `March.C220_report`, `March.C220_parallel_refuted`, `March.C220_concentric_refuted`, `March.C220_values_refuted`, `March.C221_points`, `March.C221_count`, `March.C221_bounds_partial`, `March.C221_line`, `March.C221_end`, `March.C221_circle`, `March.C221_open_refuted`, `March.C221_bounds_refuted`, `March.C222_ends`, `March.C222_line`, `March.C222_open_refuted`, `March.C222_count_refuted`, `March.Iter.C223_terminates`, `March.Iter.C223_covered`, `March.Iter.C223_starts`, `March.Iter.C223_open_refuted`, `Cp.C224_closest`, `Cp.minDistance_spec`, `Cp.C225_result_partial`, `Cp.C225_interval_partial`, `Cp.C225_minimum_partial`, `Cp.C225_interval_refuted`, `Cp.C225_minimum_refuted`, `Ccx.C226_search_partial`, `Ccx.C226_near_partial`, `Ccx.C226_speed_partial`, `Ccx.C226_tolerance_refuted`, `Ccx.C226_interval_refuted`, `Ccx.C227_terminates`, `Ccx.C227_nonempty_partial`, `Ccx.C227_segments`, `Ccx.eager_encl`, `Ccx.C227_middle_refuted`, `Ccx.C227_three_refuted`, `Ccx.C227_eager_refuted`, `Ccx.C228_terminates`, `Ccx.C228_roots_partial`, `Ccx.C228_found_partial`, `Ccx.C228_sign_refuted`, `Ccx.C228_boundary_refuted`, `Ccx.C228_tangent_refuted`, `Ccx.C228_outside_refuted`, `Poly.C23_clip_inside_partial`, `Poly.C23_clip_keeps`, `Poly.C23_clip_returns_refuted`, `Gm.C230_gauss_map_partial`, `Gm.C230_orthogonal`, `Gm.bezier_unique`, `Gm.C231_cone_partial`, `Gm.C231_separated_partial`, `Gm.C231_child_refuted`, `Gm.C231_degenerate_refuted`, `Gm.C232_exists`, `Gm.C232_sound_partial`, `Gm.C233_sound`, `Gm.C233_terminates`, `Gm.C233_complete_partial`, `Gm.C233_flat_refuted`, `Gm.C233_flat_refuted'`, `Gm.C234_constant_refuted`, `Gm.C235_planar_partial`, `Gm.C235_flat_refuted`, `Skip.C236_items`, `Skip.C236_getitem`, `Skip.C236_heights`, `Skip.C237_delete_refuted`, `Skip.C237_lost_refuted`, `Skip.C237_pred_refuted`, `Skip.C237_absent_partial`, `Skip.C237_first_partial`, `Skip.C238_neighbours`, `Skip.C238_locate_refuted`, `Skip.C238_locate_tail_refuted`, `Skip.C238_locate_partial`, `Skip.C239_run`, `Skip.C239_reverse_twice`, `Poly.C24_chain`, `Poly.C24_convex`, `Poly.C24_hull_partial`, `Poly.C24_encloses_refuted`, `Par.C240_closed`, `Par.C240_near`, `Par.C240_bound`, `Par.C241_quadratic`, `Par.C241_mean`, `Par.C241_orthogonal`, `Knot.C242_compose`, `Knot.C243_compose_normalized`, `Knot.C244_elevate_columns`, `Knot.C244_elevate_partial`, `Knot.C244_rational_refuted`, `Knot.C244_zero_raises`, `Knot.C245_merge_partial`, `Knot.C245_close_knots_refuted`, `Knot.C246_refine_partial`, `Knot.C246_refine_points_partial`, `Knot.C246_single_knot_refuted`, `Knot.C246_too_many_refuted`, `Knot.C247_ruled_value`, `Knot.C247_ruled_partial`, `Knot.C247_weights_refuted`, `Knot.C248_clamped`, `Knot.C248_unclamped`, `Knot.C248_normalize`, `Knot.C249_binsearch_refuted`, `Bvh.C25_build`, `Bvh.C25_build_single`, `Knot.C250_far_refuted`, `Knot.C251_interpolate`, `Knot.C251_regular`, `Knot.C251_knots`, `Knot.C251_params`, `Knot.C251_params_equal`, `Knot.C251_few_points_refuted`, `Knot.C252_ends`, `Knot.C252_first_partial`, `Csx.C253_distinct`, `Csx.C253_nurbs`, `Csx.C254_terminates`, `Csx.C254_bounded`, `Csx.C254_nurbs`, `Csx.C255_edge_refuted`, `Csx.C255_edge_refuted'`, `Csx.C255_complete_partial`, `Csx.C256_sorted_partial`, `Csx.C256_unconverged_refuted`, `Csx.C256_refine_partial`, `Csx.C256_newton`, `Csx.C257_isocurve_u`, `Csx.C257_isocurve_v`, `Csx.C257_isocurve_partial`, `Csx.C257_weights_refuted`, `Csx.C257_rational_refuted`, `Csx.C258_params`, `Csx.C258_boundary`, `Csx.C259_pairs`, `Csx.C259_pairing_refuted`, `Bvh.C26_traverse`, `Bvh.C26_traverse_groups`, `Bvh.C26_contains_point`, `Bvh.C26_pairs`, `Csx.C260_wedge`, `Csx.C260_wedges_partial`, `Csx.C260_separated_refuted`, `Csx.C260_shared_direction_refuted`, `Csx.C260_spherical`, `Pinv.C261_line_refuted`, `Pinv.C261_division_refuted`, `Pinv.C262_plane_refuted`, `Pinv.C262_singular`, `Pinv.C263_plane_refuted`, `Pinv.C263_origin_refuted`, `Ssx.C264_fails_iff`, `Ssx.C264_solves`, `Ssx.C264_swap_refuted`, `Ssx.C264_plane_refuted`, `Ssx.C264_plane_partial`, `Ssx.C264_py_partial`, `Ssx.C264_py_refuted`, `Ssx.C265_closest_partial`, `Ssx.C265_delete_refuted`, `Ssx.C266_sagitta`, `Ssx.C266_refine`, `Ssx.C266_planes_refuted`, `Ssx.C266_tolerance_refuted`, `Ssx.C266_tolerance_refuted'`, `Ssx.C266_aligned_refuted`, `Ssx.C266_sharp_refuted`, `Ssx.C266_edge`, `Ssx.C267_trace`, `Ssx.C267_closed_refuted`, `Ssx.solves_march`, `Ssx.C268_starts_partial`, `Ssx.C269_found_partial`, `Ssx.C269_parameters_refuted`, `Ssx.C269_aligned_refuted`, `Ssx.C269_domain_partial`, `Bvh.C27_vicinity`, `Bvh.C27_breadth_refuted`, `Ssx.C270_kept`, `Srf.C272_derivative_v`, `Srf.C272_derivative_u_partial`, `Srf.C272_derivative_u_refuted`, `Srf.C272_second_partial`, `Srf.C274_default_refuted`, `Srf.C274_isocurveU_partial`, `Srf.C275_cover`, `Srf.C275_rect`, `Srf.C275_count`, `Srf.C276_frame_partial`, `Srf.C276_second_axis_refuted`, `Srf.C277_tangent`, `Srf.C277_curvature_partial`, `Srf.C277_angle_refuted`, `Srf.C277_speed_refuted`, `Srf.C278_call`, `Srf.C278_y`, `Srf.C278_x`, `Srf.C278_linear_map_refuted`, `Crv.C279_line`, `Crv.C279_quadratic_partial`, `Crv.C279_interval_refuted`, `Crv.C279_inside_partial`, `Crv.C279_inside_refuted`, `Bvh.C28_split_half_partial`, `Bvh.C28_split_parameter_refuted`, `Bvh.C28_stale_refuted`, `Bvh.C28_split_parameter_all_refuted`, `Bvh.C28_split8_partial`, `Crv.C280_quadratic_partial`, `Crv.C280_ends_refuted`, `Crv.C282_derivative`, `Crv.C283_inverse`, `Crv.C283_clamped`, `Crv.C284_sum_partial`, `Crv.C284_reversed_refuted`, `Crv.C284_error`, `Crv.C285_within_partial`, `Crv.C285_exact`, `Crv.C285_outside`, `Crv.C285_extend_refuted`, `Crv.C286_nodes`, `Crv.C286_exact`, `Crv.C287_segments`, `Crv.C288_derivative_refuted`, `Crv.C288_direction_partial`, `Swl.C289_antisymm`, `Swl.C289_lex_partial`, `Swl.C289_transitive_refuted`, `Swl.C289_eq_refuted`, `ImplTree.C29_quadtree`, `ImplTree.C29_octree`, `ImplTree.C29_quadtree_size`, `ImplTree.C29_octree_size`, `Swl.C290_above`, `Swl.C290_vertical`, `Swl.C291_start`, `Swl.C291_touch`, `Swl.C291_antisymm`, `Swl.C292_none`, `Swl.C292_point`, `Swl.C292_exact_refuted`, `Swl.C293_test`, `Swl.C293_inserted`, `Swl.C294_members`, `Swl.C294_order`, `Swl.C295_between`, `Swl.C295_ends`, `Rtn.C298_product`, `Rtn.C298_members`, `Rtn.C298_corners`, `Rtn.C299_uvs`, `Rtn.C299_linspace`, `ImplTree.C30_collapse2d`, `ImplTree.C30_collapse3d`, `Rtn.C301_sizes_partial`, `Rtn.C301_extra_refuted`, `Apc.C303_through`, `Apc.C303_unique`, `Apc.C304_history_partial`, `Apc.C304_shared_refuted`, `Apc.C304_copy_refuted`, `Apc.C304_argument_refuted`, `Apc.C305_normal_refuted`, `Apc.C305_create_refuted`, `Apc.C306_origin_partial`, `Apc.C306_center_refuted`, `Apc.C307_distance`, `Apc.C308_tsz_partial`, `Apc.C308_height_refuted`, `Apc.C308_order_refuted`, `Apc.C309_frame`, `DnC.C31_min`, `DnC.C31_iterative`, `DnC.C31_versions_agree`, `DnC.C31_max`, `DnC.C31_any`, `DnC.C31_zero_tolerance`, `DnC.C31_plateau_refuted`, `Apc.C310_angle`, `Apc.C311_first_partial`, `Apc.C311_second_refuted`, `Apc.C311_strokes`, `Tes.C312_degrees`, `Tes.C313_edges_partial`, `Tes.C313_closed_refuted`, `Tes.C313_hole_partial`, `Tes.C313_hole_refuted`, `Tes.C314_density_partial`, `Tes.C315_corners_refuted`, `Tes.C315_inner_refuted`, `Tes.C316_interval_refuted`, `Opt.C317_inside_refuted`, `Opt.C317_implicit`, `Opt.C318_feasible`, `Opt.C318_stationary`, `Opt.C318_minimum`, `Opt.C318_singular_refuted`, `Opt.C319_step`, `Opt.C319_affine`, `Opt.C319_singular_refuted`, `DnC.C32_upper_end`, `DnC.C32_root_partial`, `DnC.C32_root_refuted`, `Opt.C320_constraint_partial`, `Opt.C320_below_refuted`, `Opt.C320_solution`, `Opt.C320_gradient_refuted`, `Opt.C322_det_refuted`, `Opt.C322_exact_partial`, `Opt.C322_plane_refuted`, `Opt.C323_tangent`, `Opt.C323_second_refuted`, `Opt.C324_shape`, `Opt.C324_negative_refuted`, `Opt.C326_parallelogram`, `Ppx.C327_planes`, `Ppx.C327_nearest_refuted`, `Ppx.C328_line`, `Ppx.C328_three`, `Ppx.C328_three_exists`, `Ppx.C329_closest_partial`, `Ppx.C329_closest_refuted`, `Ppx.C329_middle`, `Nurbs.C33_find_span_linear`, `Nurbs.C33_find_span_periodic`, `Ppx.C330_improve`, `Ppx.C333_radius_refuted`, `Ppx.C333_origin_refuted`, `Spl.C334_linear`, `Spl.C335_local`, `Spl.C336_affine`, `Spl.C336_weights`, `Spl.C337_continuous`, `Spl.C337_jump`, `Spl.C338_rows`, `Spl.C338_deriv`, `Spl.C339_knot`, `Spl.C339_start`, `Spl.C339_end`, `Nurbs.C34_basis_funs`, `Dc.C340_shapes`, `Dc.C340_rectangle`, `Dc.C341_tuple_partial`, `Dc.C341_array_refuted`, `Dc.C343_zero`, `Dc.C343_continuous`, `Dc.C344_sides`, `Dc.C344_left`, `Dc.C345_closed`, `Dc.C346_corners`, `Dc.C346_bilinear`, `Dc.C346_tiles`, `Dc.C346_error`, `Dc.C346_merged`, `Dc.C346_one`, `Dc.C347_unit`, `Dc.C347_affine`, `Dc.C348_corner`, `Dc.C348_line`, `Dc.C348_none`, `Dc.C348_cell_refuted`, `Dc.C349_horizontal`, `Dc.C349_vertical_refuted`, `Nurbs.C35_convex_hull`, `Nurbs.C35_evaluate_is_rational_spline`, `Nurbs.C35_bbox_contains_curve_partial`, `Nurbs.C35_bbox_contains_curve_refuted`, `Dc.C350_area`, `Geo.C351_no_change_of_speed`, `Geo.C351_constant_speed`, `Geo.C352_geodesic_iff`, `Geo.C352_cylinder_partial`, `Geo.C352_refuted`, `Geo.C353_metric_derivatives`, `Geo.C354_defined_iff`, `Bsu.C356_degree_one_partial`, `Bsu.C356_refuted`, `Bsu.C357_bspline_derivatives`, `Bsu.C357_extra_entry`, `Bsu.C358_binomial`, `Bsu.C358_rational_partial`, `Bsu.C358_refuted`, `Bsu.C359_refuted`, `Nurbs.C36_insert_knot_columns`, `Nurbs.C36_insert_knot_partial`, `Nurbs.C36_insert_knot_refuted`, `Bsu.C360_evaluate`, `Bsu.C360_generated`, `Tri.C364_poly`, `Tri.C364_regions`, `Tri.C364_comment_refuted`, `Tri.C367_no_rays_refuted`, `Tri.C368_refuted`, `Col.C370_roundtrip`, `Col.C370_large_refuted`, `Col.C371_unit_roundtrip`, `Col.C371_float`, `Col.C371_bytes_refuted`, `Col.C371_type_refuted`, `Col.C372_hash`, `Col.C372_tuple_refuted`, `Col.C373_components`, `Col.C373_opacity_refuted`, `Spl.C374_edges`, `Spl.C374_corners`, `Spl.C375_local`, `Spl.C376_affine`, `Spl.C377_linear`, `Spl.C378_continuous`, `Spl.C379_u`, `Spl.C379_v`, `Serial.C38_accepted`, `Rfn.C380_refine_partial`, `Rfn.C380_evaluate_partial`, `Rfn.C380_short_refuted`, `Rfn.C381_default_partial`, `Rfn.C381_density_partial`, `Rfn.C381_repeated_refuted`, `Rfn.C381_density3_refuted`, `Rfn.C382_inverse_partial`, `Rfn.C382_inverse_refuted`, `Rfn.C383_partial`, `Rfn.C383_refuted`, `Rfn.C384_partial`, `Rfn.C384_refuted`, `Spl.C386_after`, `Spl.C386_before`, `Crd.C387_there_and_back`, `Crd.C387_back_and_there`, `Crd.C388_partial`, `Crd.C388_refuted`, `Crd.C389_partial`, `Crd.C389_order_refuted`, `Crd.C389_deep_refuted`, `Nurbs.C39_reverse_partial`, `Nurbs.C39_reverse_refuted`, `Crd.C390_partial`, `Crd.C390_refuted`, `Crd.C391_local_partial`, `Crd.C391_orient_partial`, `Crd.C391_orient_refuted`, `Crd.C392_partial`, `Crd.C394_rotation`, `Crd.C394_turn`, `Gjk.Py.C395_answers`, `Gjk.Py.C395_lattice`, `Gjk.Py.C396_apart_partial`, `Gjk.Py.C396_meet_partial`, `Gjk.Py.C396_cycle_refuted`, `Gjk.Py.C396_collision_refuted`, `Clp.C397_ends`, `Clp.C398_outline`, `Clp.C398_crossings`, `Clp.C398_closed_refuted`, `Clp.C399_build`, `Clp.C399_order`, `Bez.C40_evaluate`, `Bez.C40_evaluate'`, `Bez.C40_roundtrip`, `Bez.C40_roundtrip'`, `Bez.C40_from_bezier_refuted`, `Bez.C40_range_refuted`, `Clp.C400_apart_partial`, `Clp.C400_no_crossing_refuted`, `Clp.C400_apart_refuted`, `Clp.C400_inside_refuted`, `Clp.C401_flat_partial`, `Clp.C401_height_refuted`, `Clp.C402_parity_partial`, `Clp.C402_vertex_refuted`, `Clp.C402_shift_refuted`, `Clp.C403_again_refuted`, `Pq.C404_queue`, `Pq.C404_order_refuted`, `Pq.C405_points_partial`, `Pq.C405_points_refuted`, `Fdm.C407_rows_partial`, `Fdm.C407_unfinished_refuted`, `Fdm.C407_negative_refuted`, `Poly.C408_ends`, `Poly.C408_area`, `Poly.C408_head_refuted`, `Poly.C408_second_refuted`, `Poly.C408_spike_refuted`, `Poly.C409_first_partial`, `Poly.C409_one_refuted`, `Bez.C41_elevate`, `Bez.C41_rejects`, `Bez.C41_range_refuted`, `Bez.C41_rational_refuted`, `Nst.C411_same`, `Nst.C411_equivalence`, `Nst.C411_collision_refuted`, `Nst.C411_integer_refuted`, `Nst.C411_periodic_refuted`, `Nst.C412_degree_refuted`, `Nst.C412_default_refuted`, `Nst.C412_normalize`, `Cbb.C415_returns`, `Cbb.C415_inside`, `Cbb.C415_monotone`, `Cbb.C415_unimodal_partial`, `Cbb.C415_refuted`, `Cbb.C416_returns`, `Cbb.C416_inside`, `Cbb.C416_partial`, `Cbb.C416_ends_refuted`, `Cbb.C417_partial`, `Cbb.C417_monotone`, `Cbb.C417_refuted`, `Cbb.C417_few`, `Mnm.C418_search_partial`, `Mnm.C418_keeps_best`, `Mnm.C418_edge_refuted`, `Mnm.C419_raises_refuted`, `Mnm.C419_minima_partial`, `Mnm.C419_range_refuted`, `Vec.C42_solve2x2`, `Vec.C42_invert_jacobian`, `Epl.C420_exact_partial`, `Epl.C420_steps`, `Epl.C420_limit_refuted`, `Sic.C421_tangent`, `Sic.C421_partial`, `Sic.C421_angle_refuted`, `Sic.C421_scale_refuted`, `Sic.C422_partial`, `Sic.C422_short_refuted`, `Swl.C423_lines_partial`, `Swl.C423_touch_refuted`, `Swl.C423_overlap_refuted`, `Swl.C423_outside_refuted`, `Swl.C423_order`, `Swl.C423_found`, `Sph.C424_convex`, `Sph.C424_hulls`, `Sph.C424_partial`, `Sph.C425_partial`, `Sph.C425_refuted`, `Sml.C426_partial`, `Sml.C426_sign_refuted`, `Sml.C426_skew_refuted`, `Sml.C426_short_refuted`, `Sml.C427_closed`, `Sml.C427_translation`, `Sml.C427_open_refuted`, `Sml.C428_symmetric`, `Sml.C429_partial`, `Sml.C429_short_refuted`, `Vec.C43_solver`, `Vec.C43_three_planes_partial`, `Vec.C43_three_planes_refuted`, `Vec.C43_two_planes_partial`, `Vec.C43_two_planes_refuted`, `Nsp.C430_evaluate`, `Nsp.C431_closed_iff`, `Nsp.C431_periodic_refuted`, `Nsp.C431_apart_refuted`, `Nsp.C432_refuted`, `Nsp.C433_partial`, `Nsp.C433_weights_refuted`, `Nsp.C434_partial`, `Nsp.C434_refuted`, `Edg.C435_partial`, `Edg.C435_inside_refuted`, `Edg.C435_nearest_refuted`, `Edg.C435_square_refuted`, `Edg.C435_free_partial`, `Edg.C435_outside_partial`, `Edg.C437_bounds_refuted`, `Fea.C438_skip`, `Fea.C438_complete_partial`, `Fea.C438_steep_refuted`, `Vec.C44_local_of_world`, `Vec.C44_world_of_local`, `Vec.C44_isometry`, `Vec.C44_scaled_refuted`, `Frm.C440_rows_refuted`, `Frm.C440_partial`, `Frm.C440_swap`, `Frm.C440_plane_refuted`, `Frm.C441_partial`, `Frm.C441_refuted`, `Frm.C442_partial`, `Frm.C442_refuted`, `Ssr.C443_refuted`, `Ssr.C443_parallel_refuted`, `Ssr.C443_partial`, `Ras.C446_missed_refuted`, `Ras.C446_complete_partial`, `Bvh.C448_corners`, `Bvh.C448_faces`, `Bvh.C449_refuted`, `Bvh.C449_evaluate_refuted`, `Bvh.C449_disjoint`, `Vec.C45_ray_plane`, `Vec.C45_ray_param`, `Vec.C45_small_axes_refuted`, `Vec.C45_triangle_sound`, `Vec.C45_triangle_complete`, `Vec.C45_small_triangle_refuted`, `Fdm.Pde.C450_gradient_partial`, `Fdm.Pde.C450_axes_partial`, `Fdm.Pde.C450_mixed_refuted`, `Fdm.Pde.C450_linear_partial`, `Fdm.Pde.C450_inside_partial`, `Sinv.C451_plane_partial`, `Sinv.C451_range_partial`, `Sinv.C451_interval_refuted`, `Sinv.C451_surface_refuted`, `Sinv.C452_zero_partial`, `Sinv.C452_sign_refuted`, `Sinv.C452_gradient_partial`, `Sinv.C452_gradient_refuted`, `Sinv.C453_frame_partial`, `Dqr.C454_pairs_refuted`, `Dqr.C454_missed_refuted`, `Dqr.C454_box`, `Dqr.C454_encloses_partial`, `Dqr.C454_apart_partial`, `Dqr.C454_encloses_refuted`, `Dqr.C456_ends`, `Dqr.C456_range_partial`, `Dqr.C456_second_partial`, `Dqr.C456_second_refuted`, `Dqr.C456_centre_refuted`, `Acl.C457_item_partial`, `Acl.C459_own_partial`, `Acl.C459_defaults_partial`, `Acl.C459_default_refuted`, `Acl.C459_inherit_refuted`, `Implicit.C46_ops`, `Implicit.C46_tree_partial`, `Implicit.C46_sub_refuted`, `Implicit.C46_bounds_partial`, `Implicit.C46_sub_bounds_refuted`, `Acl.C460_back_partial`, `Acl.C460_triangular`, `Acl.C460_largest`, `Acl.C460_reduced_system_partial`, `Acl.C460_solve_refuted`, `Gm.C461_sound`, `Gm.C461_ends`, `Gm.C461_complete_partial`, `Gm.C461_flat_refuted`, `Msc.C462_new_partial`, `Msc.C462_twice_refuted`, `Msc.C462_last_refuted`, `Msc.C464_evaluate`, `Msc.C464_coordinates`, `Msc.C464_interval_refuted`, `Msc.C465_edge_refuted`, `Msc.C466_lines`, `Icp.C467_planes`, `Icp.C467_contact_refuted`, `Icp.C467_success_refuted`, `Icp.C468_line`, `Icp.C468_critical_refuted`, `Icp.C469_first`, `Icp.C469_descent`, `Step.C47_numbering`, `Step.C47_append`, `Step.C47_dangling_refuted`, `Icp.C470_grid_place`, `Icp.C470_grid`, `Icp.C470_frame`, `Cnr.C471_jacobian`, `Cnr.C471_step`, `Cnr.C471_line_plane`, `Cnr.C471_parallel_refuted`, `Cnr.C471_disjoint_refuted`, `Cnr.C472_point_normal`, `Cnr.C472_parametric`, `Cnr.C472_frame_refuted`, `Ofs.C473_inverse`, `Ofs.C473_error_partial`, `Ofs.C473_flat`, `Ofs.C473_slow_refuted`, `Implicit.C474_inside`, `Implicit.C474_difference_refuted`, `Implicit.C474_gradient`, `Implicit.C474_project_partial`, `Implicit.C474_tangent`, `Implicit.C474_many_refuted`, `Bvh.C475_box`, `Bvh.C475_subdivide`, `Bvh.C475_halving`, `Bvh.C475_clip_partial`, `Bvh.C475_ray`, `Bvh.C475_ray_evaluate_refuted`, `Bvh.C475_flat_refuted`, `Sinv.C476_range_partial`, `Sinv.C476_each`, `Sinv.C476_nearest_refuted`, `Sinv.C476_batch_refuted`, `Kdc.C477_derivative_partial`, `Kdc.C477_line`, `Opt.C478_tangent`, `Opt.C478_planes_partial`, `Opt.C478_still_refuted`, `Opt.C478_difference`, `Opt.C478_straight`, `Opt.C478_circle`, `Clm.C479_nearest_partial`, `Clm.C479_turn_space_refuted`, `Clm.C479_grid`, `Clm.C479_distinct`, `Step.C48_multiplicities`, `Step.C48_sorted`, `ApiMat.C480_meaning_partial`, `ApiMat.C480_symmetry_refuted`, `ApiMat.C480_chain_refuted`, `ApiMat.C480_zero`, `Fea.C481_sound`, `Fea.C481_complete_partial`, `Fea.C481_gap_refuted`, `Fea.C481_exchanged_refuted`, `Ppx.C482_orbit_partial`, `Ppx.C482_closed_refuted`, `Ppx.C482_edge_refuted`, `Ppx.C482_apart_refuted`, `Ppx.C482_wrap_refuted`, `Imf.C483_product`, `Imf.C483_bounded`, `Imf.C483_parts`, `Imf.C484_symmetric`, `Imf.C484_bounded_partial`, `Imf.C484_bounded_refuted`, `Imf.C484_distance_refuted`, `Imf.C485_ellipsoid`, `Sbv.C486_pieces`, `Sbv.C486_boxes_partial`, `Sbv.C486_boxes_refuted`, `Sbv.C486_default_partial`, `Sbv.C486_default_refuted`, `Brep.C49_returned`, `Brep.C49_collision_refuted`, `Brep.C49_symmetric`, `Brep.C49_neighbours`, `ApiBox.C50_combine`, `ApiBox.C50_combine_plane`, `ApiBox.C50_from_points`, `KdTree.C51_first_delete_partial`, `Sort.C52_chain_collapse_refuted`, `Sort.C52_cover_partial`, `Interval.C53_compare_number_refuted`, `Nurbs.C54_evaluate_terminates_refuted`, `Nurbs.C55_periodic_evaluate_refuted`, `Nurbs.C56_split_partial`, `Nurbs.C56_split_refuted`, `Nurbs.C57_split_multiple_partial`, `Nurbs.C57_decompose_bezier`, `Nurbs.C58_flip_refuted`, `Nurbs.C58_flip_knots_decrease`, `Nurbs.C59_trim_refuted`, `Nurbs.C60_greville`, `Nurbs.C61_surface_evaluate`, `Nurbs.C62_insert_knot_u`, `Nurbs.C62_insert_knot_v`, `Nurbs.C63_split_surface_u`, `Nurbs.C63_split_surface_v`, `Nurbs.C64_surface_bbox`, `Nurbs.C65_subdivide`, `Nurbs.C65_decompose_surface`, `Nurbs.C66_normalize_knots`, `Nurbs.C66_curve_normalize_knots`, `Nurbs.C67_default_knots`, `Nurbs.C67_curve_default_knots`, `Nurbs.C68_make_periodic_partial`, `Nurbs.C68_make_periodic_refuted`, `Nurbs.C69_is_periodic_refuted`, `Nurbs.C69_make_open_refuted`, `Bvh.C70_segment_query`, `Bvh.C71_list_kept_partial`, `Bvh.C71_list_order_refuted`, `ImplTree.C73_reduce_collapse`, `ImplTree.C73_recollapse`, `ImplTree.C74_tree3d`, `ImplTree.C74_tree2d_partial`, `ImplTree.C74_bounds_refuted`, `ImplTree.C74_full_inside_refuted`, `ImplTree.C75_terminates`, `ImplTree.C75_leaves`, `ImplTree.C75_twice_refuted`, `ImplTree.C76_closest_node`, `ImplTree.C77_traverse`, `ImplTree.C78_predicates`, `ImplTree.C79_division2d`, `ImplTree.C80_power_of_two`, `DnC.C81_search_partial`, `DnC.C81_keeps_best`, `DnC.C81_minimum_refuted`, `DnC.C82_columns_refuted`, `DnC.C83_nd_partial`, `DnC.C83_minimum_refuted`, `DnC.C84_scan_partial`, `DnC.C84_once_refuted`, `DnC.C85_terminates`, `DnC.C85_root_partial`, `DnC.C85_zero_midpoint_refuted`, `DnC.C86_min_partial`, `DnC.C86_boundary_refuted`, `Vec.C87_decompose_partial`, `Vec.C87_dependent_refuted`, `Vec.C88_projection`, `Vec.C88_closest_partial`, `Vec.C88_closest_refuted`, `Vec.C89_scalar`, `Vec.C89_not_unit_refuted`, `Vec.C90_dot`, `Vec.C90_products_partial`, `Vec.C90_uninitialised_refuted`, `Vec.C91_unit`, `Vec.C91_perp`, `Vec.C91_from_normal_partial`, `Vec.C91_handedness_refuted`, `Vec.C91_normal_origin_partial`, `Vec.C91_normal_origin_refuted`, `Vec.C91_from_points`, `Vec.normSpec_sqrt`, `Vec.C92_from_equation_partial`, `Vec.C92_origin_refuted`, `Vec.C93_project`, `Vec.C93_distance`, `Vec.C93_not_unit_refuted`, `Vec.C94_plane_line`, `Vec.C95_race_refuted`, `Vec.C96_classify`, `Vec.C96_small_refuted`, `Vec.C97_local_max`, `Vec.C97_max_partial`, `Vec.C97_max_refuted`, `Vec.C99_triangle`, `Vec.C99_open_refuted`
