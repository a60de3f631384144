{"claims": [
  {"property": "C01", "status": "proved", "theorems": ["Verif.UnionFind.C01_find_eq_iff_connected"], "note": "find-equality coincides with the equivalence closure of the union calls, for every history"},
  {"property": "C02", "status": "proved", "theorems": ["Verif.UnionFind.C02_find_terminates_log_depth", "Verif.UnionFind.C02_find_out_of_range"], "note": "find always terminates, chain length is logarithmic, out-of-range fails"},
  {"property": "C03", "status": "proved", "theorems": ["Verif.UnionFind.C03_group_tuples_components"], "note": ""},
  {"property": "C04", "status": "proved", "theorems": ["Verif.Avl.C04_keys_refine_set"], "note": ""},
  {"property": "C05", "status": "proved", "theorems": ["Verif.Avl.C05_balanced"], "note": ""},
  {"property": "C06", "status": "partial", "theorems": ["Verif.Avl.C06_overwrite_refuted", "Verif.Avl.C06_delete_refuted", "Verif.Avl.C06_append_refuted", "Verif.Avl.C06_mapping_fresh_inserts_partial", "Verif.Avl.C06_insert_keeps_others_partial"], "note": "The mapping claim is false for the code as written (overwrite ignored, two-child delete mixes data, append drops); refutations proved; distinct-key inserts and the one-step frame rule proved."},
  {"property": "C07", "status": "partial", "theorems": ["Verif.Cdll.C07_sequence_partial", "Verif.Cdll.C07_insert_front_refuted", "Verif.Cdll.C07_iter_empty_refuted", "Verif.Cdll.C07_remove_only_refuted", "Verif.Cdll.C07_remove_missing_refuted", "Verif.Cdll.C07_replace_then_remove_refuted", "Verif.Cdll.C07_negative_index_refuted"], "note": "List behaviour refuted on six witnesses (insert at front, empty iteration, removing the only/missing element, replace then remove, negative index); the sequence refinement is proved for append, insert at i>=1, remove_by_index, get, index, len."},
  {"property": "C08", "status": "proved", "theorems": ["Verif.KdTree.C08_nearest_is_minimal", "Verif.KdTree.C08_wrong_dimension_rejected"], "note": "nearest neighbour minimal for every rebalancing policy and every constructor/insert history"},
  {"property": "C09", "status": "partial", "theorems": ["Verif.KdTree.C09_delete_misses_refuted", "Verif.KdTree.C09_contents_inserts_partial", "Verif.KdTree.C09_history_partial", "Verif.KdTree.C09_first_delete_partial"], "note": "delete refuted (ties sit right of the split); proved: constructor and inserts exact, nothing else lost or invented over any history, first delete exact when points differ in every coordinate"},
  {"property": "C10", "status": "partial", "theorems": ["Verif.KdTree.C10_too_few_refuted", "Verif.KdTree.C10_nonpositive", "Verif.KdTree.C10_knn_partial", "Verif.KdTree.C10_knn_exact_partial"], "note": "count refuted; soundness, order and first-is-nearest proved; the full claim proved when every stored point differs from the target in at least two coordinates"},
  {"property": "C100", "status": "partial", "theorems": ["Verif.ApiBox.C100_intersection", "Verif.ApiBox.C100_plane_partial", "Verif.ApiBox.C100_plane_refuted", "Verif.ApiBox.C100_plane_raises"], "note": "Proved in space; in the plane only for a box inside the other, refuted otherwise (crossing boxes raise)."},
  {"property": "C101", "status": "partial", "theorems": ["Verif.ApiBox.C101_frame_partial", "Verif.ApiBox.C101_effect_partial", "Verif.ApiBox.C101_setter_refuted"], "note": "Proved for every history without corner assignment; refuted with it."},
  {"property": "C102", "status": "partial", "theorems": ["Verif.Implicit.C102_gradient_partial", "Verif.Implicit.C102_unit_refuted", "Verif.Implicit.C102_project_partial", "Verif.Implicit.C102_project_refuted"], "note": "The exact gradient of quadratic functions is returned; it is not normalised, so projection misses (refuted)."},
  {"property": "C103", "status": "partial", "theorems": ["Verif.Implicit.C103_cache_partial", "Verif.Implicit.C103_repr_refuted"], "note": "Proved when equal representations imply equal values; refuted otherwise (numpy prints eight digits)."},
  {"property": "C104", "status": "proved", "theorems": ["Verif.Step.C104_types"], "note": ""},
  {"property": "C105", "status": "partial", "theorems": ["Verif.Step.C105_origin_partial", "Verif.Step.C105_frame_refuted"], "note": "The origin is right; axis and reference direction are exchanged (refuted for every plane with orthogonal axes)."},
  {"property": "C106", "status": "partial", "theorems": ["Verif.Step.C106_curve_partial", "Verif.Step.C106_weights_refuted"], "note": "Degree, points and knots can be read back; weights are not written (refuted)."},
  {"property": "C107", "status": "partial", "theorems": ["Verif.Step.C107_loop_refuted"], "note": "Refuted for every surface: the four edges share no vertex."},
  {"property": "C108", "status": "partial", "theorems": ["Verif.Step.Parse.C108_arguments_partial", "Verif.Step.Parse.C108_total", "Verif.Step.Parse.C108_typed_refuted", "Verif.Step.Parse.C108_escape_refuted", "Verif.Step.Parse.C108_string_refuted", "Verif.Step.Parse.C108_empty_refuted"], "note": "Proved for tokens, strings and nested lists of any depth; typed parameters, doubled quotes, parentheses in nested strings and omitted arguments refuted."},
  {"property": "C109", "status": "partial", "theorems": ["Verif.Step.Parse.C109_line_partial", "Verif.Step.Parse.C109_digit_refuted"], "note": "Proved for keywords of capital letters and underscores; refuted for every keyword with a digit."},
  {"property": "C11", "status": "partial", "theorems": ["Verif.RTree.C11_misses_refuted", "Verif.RTree.C11_sound_partial", "Verif.RTree.C11_exact_small_partial"], "note": "Completeness refuted with the default limits on twelve unit squares; soundness, contents and exactness below m*(M+1) inserts proved."},
  {"property": "C110", "status": "partial", "theorems": ["Verif.Brep.C110_edge_partial", "Verif.Brep.C110_edge_dedup", "Verif.Brep.C110_edge_refuted", "Verif.Brep.C110_face_partial", "Verif.Brep.C110_face_refuted", "Verif.Brep.C110_face_raises"], "note": "Edges between different points and outer loops of faces proved, and repeated requests for edges; closed edges and holes refuted."},
  {"property": "C111", "status": "partial", "theorems": ["Verif.Brep.C111_vertices", "Verif.Brep.C111_shared", "Verif.Brep.C111_loop_refuted"], "note": "Vertices and their sharing proved; the loop is no chain for any surface with four different corners (refuted)."},
  {"property": "C112", "status": "partial", "theorems": ["Verif.Serial.C112_pickle_partial", "Verif.Serial.C112_pickle_refuted", "Verif.Serial.C112_edit_refuted"], "note": "Proved for curves not marked periodic and for those whose compared rows agree; refuted for all others."},
  {"property": "C113", "status": "partial", "theorems": ["Verif.Bez.C113_table", "Verif.Bez.C113_range_refuted"], "note": "All entries of the table proved; beyond 30 refuted."},
  {"property": "C114", "status": "proved", "theorems": ["Verif.Bez.C114_cross", "Verif.Bez.C114_derivatives", "Verif.Bez.C114_normal", "Verif.Bez.C114_orthogonal"], "note": "Polynomials of all degrees over any field; derivatives over the reals."},
  {"property": "C115", "status": "proved", "theorems": ["Verif.Bez.C115_rational"], "note": "Hypothesis: the Bezier weights are not zero, as the code divides by them; degrees within the table."},
  {"property": "C116", "status": "partial", "theorems": ["Verif.ApiMat.C116_roundtrip_iff", "Verif.ApiMat.C116_roundtrip_refuted", "Verif.ApiMat.C116_local_refuted", "Verif.ApiMat.C116_align_refuted", "Verif.ApiMat.C116_rows_partial"], "note": "Refuted: axes and origin are written as rows and read as columns, the round trip holds exactly for zero origin and symmetric axes; @ ignores the origin; align never returns. Proved: the matrix is right for row vectors."},
  {"property": "C117", "status": "partial", "theorems": ["Verif.ApiMat.C117_fix2_iff", "Verif.ApiMat.C117_rotate2_refuted", "Verif.ApiMat.C117_stale_refuted", "Verif.ApiMat.C117_rotate3_refuted", "Verif.ApiMat.C117_rotate2_partial", "Verif.ApiMat.C117_rotate3_partial"], "note": "Refuted: the centre is fixed in 2D only if sine or centre is zero, in 3D only if the centre is zero; without a centre the old translation stays. Proved: isometry, right linear part."},
  {"property": "C118", "status": "partial", "theorems": ["Verif.ApiMat.C118_rotateTo2", "Verif.ApiMat.C118_rotateTo3_refuted", "Verif.ApiMat.C118_opposite_refuted"], "note": "Proved in 2D; refuted in 3D for all non-parallel vectors (returns False) and for opposite vectors without axis."},
  {"property": "C119", "status": "proved", "theorems": ["Verif.ApiMat.C119_comp", "Verif.ApiMat.C119_comp_affine", "Verif.ApiMat.C119_inverse", "Verif.ApiMat.C119_inverse_affine", "Verif.ApiMat.C119_translation", "Verif.ApiMat.C119_rotation_affine", "Verif.ApiMat.C119_system_refuted"], "note": "All affine matrices; matrices set with a coordinate system are affine only with zero origin (C119_system_refuted)."},
  {"property": "C12", "status": "proved", "theorems": ["Verif.Sort.C12_quicksort_sorts", "Verif.Sort.C12_range_untouched_outside"], "note": "sorted permutation, memory safe, range form"},
  {"property": "C120", "status": "partial", "theorems": ["Verif.ApiMat.C120_inplace_refuted", "Verif.ApiMat.C120_inplace_partial", "Verif.ApiMat.C120_subtract"], "note": "Refuted: the operators return None, the variable is lost. Proved: effect on objects."},
  {"property": "C121", "status": "partial", "theorems": ["Verif.ApiMat.C121_parallel_refuted", "Verif.ApiMat.C121_parallel_false_refuted", "Verif.ApiMat.C121_parallel_partial", "Verif.ApiMat.C121_opposite_refuted", "Verif.ApiMat.C121_perp_refuted", "Verif.ApiMat.C121_angle_refuted", "Verif.ApiMat.C121_angle_partial", "Verif.ApiMat.C121_length_refuted", "Verif.ApiMat.C121_transform_refuted"], "note": "Refuted for vectors that are not of unit length, for opposite vectors in 2D and short vectors; Vector3D.length and Vector2D.transform always raise. Proved for unit vectors."},
  {"property": "C122", "status": "partial", "theorems": ["Verif.ApiMat.C122_cast2", "Verif.ApiMat.C122_cast2_refuted", "Verif.ApiMat.C122_cast3", "Verif.ApiMat.C122_matrix_refuted"], "note": "Vector3D.cast proved; Vector2D.cast refuted below length two; matrices from cells are the identity."},
  {"property": "C123", "status": "proved", "theorems": ["Verif.NDer.C123_all_basis_funs"], "note": "All valid knot vectors, no bound on the degree."},
  {"property": "C124", "status": "proved", "theorems": ["Verif.NDer.C124_ders_basis_funs", "Verif.NDer.C124_sum_zero"], "note": "k-th derivative of the polynomial that agrees with the function on the span; sum zero. The factorial factor is a C int in the code (overflow for degrees from 13 on is not modelled)."},
  {"property": "C125", "status": "partial", "theorems": ["Verif.NDer.C125_derivatives", "Verif.NDer.C125_agree", "Verif.NDer.C125_derivative_partial", "Verif.NDer.C125_end_partial", "Verif.NDer.C125_interior_partial", "Verif.NDer.C125_second", "Verif.NDer.C125_rational_refuted", "Verif.Spl.C338_first_partial"], "note": "Proved: both algorithms give all derivatives of the spline over the Cartesian control points; for equal weights that is the derivative of evaluate (right derivative everywhere, left at the end, two-sided off knots and at knots of multiplicity below the degree). Refuted for different weights: weights are ignored. Missing: periodic curves."},
  {"property": "C126", "status": "partial", "theorems": ["Verif.NDer.C126_refuted", "Verif.NDer.C126_control_points_partial"], "note": "Refuted: every call raises, the buffer has a column less than the rows copied. Proved for curve_deriv_cpts without weights."},
  {"property": "C127", "status": "partial", "theorems": ["Verif.NSDer.C127_surface_derivatives_partial", "Verif.NSDer.C127_end_refuted", "Verif.NSDer.C127_end_v_refuted"], "note": "Proved before the right ends; refuted at the right ends of every clamped surface (span search with one control point too many: NaN)."},
  {"property": "C128", "status": "partial", "theorems": ["Verif.NSDer.C128_leibniz", "Verif.NSDer.C128_rest", "Verif.NSDer.C128_value_partial", "Verif.NSDer.C128_mixed_partial", "Verif.NSDer.C128_inner_partial"], "note": "Leibniz inversion proved for all orders up to 30 (size of the binomial table); entries are the mixed derivatives of evaluate over the reals, one-sided everywhere before the right ends, two-sided off knots. Missing: right ends (see C127), higher orders."},
  {"property": "C129", "status": "partial", "theorems": ["Verif.NSDer.C129_control_points_partial", "Verif.NSDer.C129_last_order_refuted", "Verif.NSDer.C129_buffer_refuted"], "note": "Proved for orders up to the degree in the first direction; refuted above it (entries stay zero) and for windows larger than the buffer (overrun)."},
  {"property": "C13", "status": "proved", "theorems": ["Verif.Sort.C13_argsort_sorts"], "note": ""},
  {"property": "C130", "status": "proved", "theorems": ["Verif.Sweep.C130_dict", "Verif.Sweep.C130_lookup"], "note": ""},
  {"property": "C131", "status": "partial", "theorems": ["Verif.Sweep.C131_delete_refuted", "Verif.Sweep.C131_delete_partial", "Verif.Sweep.C131_pred_refuted"], "note": "Refuted for every present key that is not the smallest (all smaller keys leave the iteration too) and, for pred, whenever a greater key exists; holds for absent keys and, as far as iteration goes, for the smallest key."},
  {"property": "C132", "status": "partial", "theorems": ["Verif.Sweep.C132_locate_partial", "Verif.Sweep.C132_locate_present_refuted", "Verif.Sweep.C132_locate_none_refuted"], "note": "Holds for absent keys that are not behind the last one; refuted for every present key (the smallest node of the sequence is returned) and behind the last key (tail node instead of None)."},
  {"property": "C133", "status": "partial", "theorems": ["Verif.Sweep.C133_neighbours", "Verif.Sweep.C133_delItem", "Verif.Sweep.C133_insertAt", "Verif.Sweep.C133_reverse", "Verif.Sweep.C133_locate_insertAt", "Verif.Sweep.C133_empty_refuted"], "note": "All node operations proved for nodes of the sequence; insertion at the located node proved for sequences that are not empty and refuted (IndexError) for empty ones with left over levels of the tail."},
  {"property": "C134", "status": "proved", "theorems": ["Verif.Lu.C134_inverse", "Verif.Lu.C134_factors", "Verif.Lu.C134_solve"], "note": ""},
  {"property": "C135", "status": "partial", "theorems": ["Verif.Lu.C135_argument_refuted", "Verif.Lu.C135_strides_refuted", "Verif.Lu.C135_transpose_refuted", "Verif.Lu.C135_contiguous_partial"], "note": "Refuted: the argument is overwritten by its factors whenever an entry below the diagonal exceeds one in absolute value; the result for any strides is the inverse of the first n*n numbers in memory, so for a transposed array it is right iff the array is symmetric. Holds for contiguous arrays as far as the returned value goes."},
  {"property": "C136", "status": "proved", "theorems": ["Verif.Integ.C136_exact", "Verif.Integ.C136_rows", "Verif.Integ.C136_table"], "note": ""},
  {"property": "C137", "status": "partial", "theorems": ["Verif.Integ.C137_accuracy_refuted", "Verif.Integ.C137_polynomial_partial"], "note": "Refuted: for every interval, every acc > 0 and every M there is a continuous function whose integral is M while romberg1d returns 0. Exact for polynomials of degree at most 5."},
  {"property": "C138", "status": "proved", "theorems": ["Verif.Integ.C138_linear", "Verif.Integ.C138_quadrature", "Verif.Integ.C138_moving_frame"], "note": ""},
  {"property": "C139", "status": "partial", "theorems": ["Verif.Integ.C139_result", "Verif.Integ.C139_empty", "Verif.Integ.C139_terminates_partial", "Verif.Integ.C139_never_refuted", "Verif.Integ.C139_quartic_refuted"], "note": "Refuted termination: for all settings there is a quartic right-hand side on which the loop never ends, since steps are never made smaller than hmin. Whenever the function returns the rest of the claim holds; it terminates if steps up to hmin are accepted."},
  {"property": "C14", "status": "partial", "theorems": ["Verif.Sort.C14_unique", "Verif.Sort.C14_unique_eps", "Verif.Sort.C14_emplace_single_refuted", "Verif.Sort.C14_emplace_partial"], "note": "uniqueSorted, ByRef, Int and Eps proved for every array, libc qsort assumed to sort; the in-place integer variant is refuted for one element and proved for two or more"},
  {"property": "C140", "status": "partial", "theorems": ["Verif.Integ.C140_polygon_refuted", "Verif.Integ.C140_line_refuted", "Verif.Integ.C140_bounds_partial"], "note": "Refuted: half of the first and of the last chord are missing for every curve; a line of n unit steps has length n-1. The result is a lower bound of the polygon length that misses exactly those halves."},
  {"property": "C141", "status": "partial", "theorems": ["Verif.Integ.C141_inverse", "Verif.Integ.C141_chord", "Verif.Integ.C141_circle", "Verif.Integ.C141_large_refuted"], "note": "Holds for tolerances up to the radius and all chords; refuted for tolerances between radius and diameter."},
  {"property": "C142", "status": "proved", "theorems": ["Verif.Fdm.C142_gradient", "Verif.Fdm.C142_gradient_order", "Verif.Fdm.C142_hessian_diagonal", "Verif.Fdm.C142_hessian_mixed", "Verif.Fdm.C142_symmetric", "Verif.Fdm.C142_quadratic"], "note": ""},
  {"property": "C143", "status": "partial", "theorems": ["Verif.Fdm.C143_float_partial", "Verif.Fdm.C143_argument_refuted", "Verif.Fdm.C143_hessian_refuted"], "note": "Refuted for integer arrays: perturbed entries are truncated, positive entries of the caller's array are left decreased by one. Holds for float arrays."},
  {"property": "C144", "status": "partial", "theorems": ["Verif.Fdm.C144_quadratic_partial", "Verif.Fdm.C144_no_root_refuted", "Verif.Fdm.C144_linear_refuted"], "note": "Refuted: it looks for critical points; for quadratics without zeros it returns a point, for linear functions None. What holds: it finds the critical point of every regular quadratic."},
  {"property": "C145", "status": "proved", "theorems": ["Verif.Fdm.C145_total", "Verif.Fdm.C145_minimum", "Verif.Fdm.C145_maximum", "Verif.Fdm.C145_saddle"], "note": ""},
  {"property": "C146", "status": "partial", "theorems": ["Verif.Fdm.C146_inside_partial", "Verif.Fdm.C146_short_refuted"], "note": "Holds if the bounds are at least two steps apart, refuted otherwise."},
  {"property": "C147", "status": "partial", "theorems": ["Verif.Fdm.C147_jac_refuted", "Verif.Fdm.C147_jac_partial", "Verif.Fdm.C147_dzdx_refuted"], "note": "Refuted: jac gives the transposed matrix, dzdx the quotient z'/y'."},
  {"property": "C148", "status": "partial", "theorems": ["Verif.Bisect.C148_result", "Verif.Bisect.C148_complete", "Verif.Bisect.C148_twice_refuted", "Verif.Bisect.C148_missed_refuted", "Verif.Bisect.C148_sound"], "note": "The exact list is proved. As a list of roots it is refuted: a root on a sample is reported twice, a double root between samples is missed; every listed sample is within a step of a root."},
  {"property": "C149", "status": "partial", "theorems": ["Verif.Bisect.C149_terminates", "Verif.Bisect.C149_inside", "Verif.Bisect.C149_root_partial", "Verif.Bisect.C149_lost_refuted"], "note": "Termination and containment hold. Refuted: if a midpoint is a root the search goes to a part without roots. The rest holds when no visited midpoint is a root."},
  {"property": "C15", "status": "partial", "theorems": ["Verif.Interval.C15_add", "Verif.Interval.C15_mul", "Verif.Interval.C15_div", "Verif.Interval.C15_invert", "Verif.Interval.C15_sub_refuted", "Verif.Interval.C15_sub_partial", "Verif.Interval.C15_negative_scalar_refuted", "Verif.Interval.C15_scalar_partial", "Verif.Interval.C15_pow_refuted", "Verif.Interval.C15_pow_partial"], "note": "add, mul, div, reciprocal proved; sub, negative scalars and even powers refuted with partial versions"},
  {"property": "C150", "status": "partial", "theorems": ["Verif.Bisect.C150_decreasing_refuted", "Verif.Bisect.C150_increasing_refuted", "Verif.Bisect.C150_three_refuted", "Verif.Bisect.C150_fine_partial", "Verif.Bisect.C150_inner_partial", "Verif.Bisect.C150_inside_partial"], "note": "Refuted for minima at the ends (IndexError) and for divs=3 (no end). Holds for divs >= 4 when the values fall at the first cell and do not fall at the last."},
  {"property": "C151", "status": "proved", "theorems": ["Verif.Newt.C151_solve"], "note": ""},
  {"property": "C152", "status": "partial", "theorems": ["Verif.Newt.C152_quadratic_partial", "Verif.Newt.C152_root_refuted", "Verif.Newt.C152_linear_refuted"], "note": "Refuted: it looks for critical points; the value there can be anything, and linear functions give None. What holds: it finds the critical point of every quadratic with regular Hessian in two rounds."},
  {"property": "C153", "status": "partial", "theorems": ["Verif.Newt.C153_permuted", "Verif.Newt.C153_singular", "Verif.Newt.C153_iff", "Verif.Newt.C153_inverse_refuted", "Verif.Newt.C153_system_refuted", "Verif.Newt.C153_dominant_partial"], "note": "Refuted: the rows of the result are permuted; right exactly if no rows were exchanged, so wrong whenever the first entry is not the greatest of the first column. Right for matrices with dominant diagonal."},
  {"property": "C154", "status": "partial", "theorems": ["Verif.Newt.C154_affine_partial", "Verif.Newt.C154_diverges_refuted"], "note": "Refuted: diverges for every system of two equations with |A00| < |A10|. Holds for dominant diagonals."},
  {"property": "C155", "status": "partial", "theorems": ["Verif.Newt.C155_constraint_refuted", "Verif.Newt.C155_linear_refuted", "Verif.Newt.C155_stationary_partial"], "note": "Refuted: the value of the constraint has no influence; linear constraints end the loop at once (start returned, or UnboundLocalError). What holds: the last step solves H_f s = grad f - lambda grad g and is short."},
  {"property": "C156", "status": "proved", "theorems": ["Verif.Newt.C156_line_search", "Verif.Newt.C156_strong_wolfe", "Verif.Newt.C156_ascent", "Verif.Newt.C156_full_step"], "note": ""},
  {"property": "C157", "status": "proved", "theorems": ["Verif.Newt.C157_inside", "Verif.Newt.C157_descent"], "note": ""},
  {"property": "C158", "status": "partial", "theorems": ["Verif.Newt.C158_stuck_refuted", "Verif.Newt.C158_outside_refuted", "Verif.Newt.C158_interior_partial"], "note": "Refuted: gets stuck on an active bound, and depends on values outside of the bounds. Holds if the minimum of a positive definite quadratic lies in the box."},
  {"property": "C159", "status": "proved", "theorems": ["Verif.Gjk.C159_support_vertex", "Verif.Gjk.C159_support_difference"], "note": ""},
  {"property": "C16", "status": "proved", "theorems": ["Verif.Interval.C16_subdivide", "Verif.Interval.C16_and_or", "Verif.Interval.C16_evaluate"], "note": ""},
  {"property": "C160", "status": "proved", "theorems": ["Verif.Gjk.C160_apart"], "note": ""},
  {"property": "C161", "status": "partial", "theorems": ["Verif.Gjk.C161_collide", "Verif.Gjk.C161_tolerance_refuted"], "note": "Proved for tolerance 0. Refuted for positive tolerances: for s^4 <= tol < s^2 a triangle of size s is reported to contain the origin."},
  {"property": "C162", "status": "partial", "theorems": ["Verif.Gjk.C162_small_answer", "Verif.Gjk.C162_small_refuted", "Verif.Gjk.C162_cycle_refuted", "Verif.Gjk.C162_exact_partial"], "note": "Refuted: any shape whose extent is small against the root of the tolerance does not collide with itself; because of wrongly erased points the search can cycle, for every number of rounds, on a triangle and a segment that crosses it, and then the answer depends on the order of the arguments. With tolerance 0 the answer is right whenever the rounds did not run out."},
  {"property": "C163", "status": "proved", "theorems": ["Verif.Gjk.C163_bookkeeping"], "note": ""},
  {"property": "C164", "status": "proved", "theorems": ["Verif.Gjk.C164_translation", "Verif.Gjk.C164_scale", "Verif.Gjk.C164_lattice"], "note": ""},
  {"property": "C165", "status": "partial", "theorems": ["Verif.Gjk.C165_separated", "Verif.Gjk.C165_self_refuted", "Verif.Gjk.C165_cycle_refuted", "Verif.Gjk.C165_true_partial"], "note": "Disjoint sets are always reported as separable with tolerance 0. Refuted: small sets are reported as separable from themselves; crossing sets can be reported as separable. The answer True is right when the rounds did not run out."},
  {"property": "C166", "status": "partial", "theorems": ["Verif.Gjk.C166_plane", "Verif.Gjk.C166_same_plane_refuted", "Verif.Gjk.C166_strict_partial"], "note": "Exact description of the test proved. Refuted: every flat patch is accepted against itself and everything in its plane. Right when the second set stays off the plane."},
  {"property": "C167", "status": "proved", "theorems": ["Verif.Gjk.C167_triangle_distance", "Verif.Gjk.C167_equal_corners", "Verif.Gjk.C167_sqrt"], "note": ""},
  {"property": "C168", "status": "proved", "theorems": ["Verif.Prim.C168_distance", "Verif.Prim.C168_gradient"], "note": ""},
  {"property": "C169", "status": "proved", "theorems": ["Verif.Prim.C169_bounds"], "note": ""},
  {"property": "C17", "status": "proved", "theorems": ["Verif.Aabb.C17_aabb_smallest", "Verif.Aabb.C17_segment_box"], "note": "aabb over any list of points with at most 3 columns (exact ordered field); segment box"},
  {"property": "C170", "status": "proved", "theorems": ["Verif.Prim.C170_distance", "Verif.Prim.C170_gradient"], "note": ""},
  {"property": "C171", "status": "partial", "theorems": ["Verif.Prim.C171_bounds_refuted", "Verif.Prim.C171_bounds_partial"], "note": "Refuted for every cylinder: the values know only the infinite cylinder. Smallest box proved for the part between the end planes."},
  {"property": "C172", "status": "partial", "theorems": ["Verif.Prim.C172_distance", "Verif.Prim.C172_gradient", "Verif.Prim.C172_bounds_partial", "Verif.Prim.C172_bounds_refuted", "Verif.Prim.C172_unit_refuted"], "note": "Values and central differences proved. Refuted: the wall goes on beyond the ends; the gradient is zero in the middle of the wall. Smallest box proved for the part between the end planes."},
  {"property": "C173", "status": "proved", "theorems": ["Verif.Prim.C173_on_surface", "Verif.Prim.C173_covers"], "note": ""},
  {"property": "C174", "status": "partial", "theorems": ["Verif.Prim.C174_nan", "Verif.Prim.C174_against_x_refuted", "Verif.Prim.C174_radius_refuted"], "note": "Refuted: an axis exactly against the first coordinate axis gives NaN (and only that one, besides equal ends); an assigned radius does not reach the implicit function."},
  {"property": "C175", "status": "proved", "theorems": ["Verif.Prim.C175_base_gradient"], "note": ""},
  {"property": "C176", "status": "proved", "theorems": ["Verif.Dg.C176_curvature", "Verif.Dg.C176_parameter"], "note": ""},
  {"property": "C177", "status": "proved", "theorems": ["Verif.Dg.C177_circle"], "note": ""},
  {"property": "C178", "status": "proved", "theorems": ["Verif.Dg.C178_frenet", "Verif.Dg.C178_plane_curvature"], "note": ""},
  {"property": "C179", "status": "partial", "theorems": ["Verif.Dg.C179_stale_refuted", "Verif.Dg.C179_same_partial", "Verif.Dg.C179_tangent"], "note": "Refuted at D1 = 0: the compiled version does not write the curvature vector."},
  {"property": "C18", "status": "proved", "theorems": ["Verif.Aabb.C18_intersect_iff_common", "Verif.Aabb.C18_intersect_symm", "Verif.Aabb.C18_intersection_box", "Verif.Aabb.C18_point_in_aabb"], "note": "all dimensions, exact ordered field; well-formed boxes"},
  {"property": "C180", "status": "proved", "theorems": ["Verif.Dg.C180_principal"], "note": ""},
  {"property": "C181", "status": "partial", "theorems": ["Verif.Dg.C181_directions_partial", "Verif.Dg.C181_orthogonal_refuted"], "note": "Refuted: where the parameter lines are perpendicular lines of curvature one direction is NaN, at umbilics both. Proved where the directions are numbers."},
  {"property": "C182", "status": "proved", "theorems": ["Verif.Dg.C182_regular", "Verif.Dg.C182_parameters", "Verif.Dg.C182_sphere"], "note": ""},
  {"property": "C183", "status": "partial", "theorems": ["Verif.Dg.C183_classify", "Verif.Dg.C183_dupin_refuted", "Verif.Dg.C183_surface_refuted"], "note": "classify_point proved. Refuted: classify_point_dupin for k1 = 0, k2 != 0 (and only there); classify_point_on_surface on elliptic paraboloids and cylinders."},
  {"property": "C184", "status": "partial", "theorems": ["Verif.Dg.C184_indicatrix", "Verif.Dg.C184_parabolic_refuted"], "note": "Elliptic and hyperbolic points proved; the curve of a parabolic point is refuted."},
  {"property": "C185", "status": "partial", "theorems": ["Verif.Dg.C185_distance_refuted", "Verif.Dg.C185_two_steps_partial", "Verif.Dg.C185_predict_refuted"], "note": "Refuted: the distance is multiplied by the number of steps, the predicted point is at step_size times the distance. Proved for two samples."},
  {"property": "C186", "status": "proved", "theorems": ["Verif.Dg.C186_euler"], "note": ""},
  {"property": "C187", "status": "partial", "theorems": ["Verif.Dg.C187_rank", "Verif.Dg.C187_solution_partial", "Verif.Dg.C187_exchanged_refuted", "Verif.Dg.C187_error_refuted"], "note": "Rank and pivot ratio proved. Refuted: the coefficients are exchanged when the largest entry is in the second column; the error is not along the normal."},
  {"property": "C188", "status": "partial", "theorems": ["Verif.Dg.C188_arrays_partial", "Verif.Dg.C188_pivot_refuted", "Verif.Dg.C188_opposite_refuted"], "note": "Proved under the stated condition on the pivot row. Refuted: zero pivots, opposite columns."},
  {"property": "C189", "status": "partial", "theorems": ["Verif.Dg.C189_sectional_partial", "Verif.Dg.C189_sectional_refuted"], "note": "Refuted for slanted parameters (arrays changed by solve3x2); proved when solve3x2 changes nothing."},
  {"property": "C19", "status": "partial", "theorems": ["Verif.Aabb.C19_segment_exact", "Verif.Aabb.C19_clip_exact", "Verif.Aabb.C19_segment_within_tol", "Verif.Aabb.C19_ray_clamp_refuted", "Verif.Aabb.C19_ray_partial"], "note": "segment and clip: exact when no direction component is strictly between 0 and the tolerance, within tolerance otherwise. Ray: refuted (tmax clamped to 1 but tmin not), partial theorem states what the returned pair means"},
  {"property": "C190", "status": "proved", "theorems": ["Verif.Dg.C190_regular", "Verif.Dg.C190_success", "Verif.Dg.C190_singular", "Verif.Dg.C190_quadrants"], "note": ""},
  {"property": "C191", "status": "partial", "theorems": ["Verif.Deb.C191_unity_partial", "Verif.Deb.C191_knots_refuted"], "note": "Proved strictly inside the spans. Refuted at every knot strictly inside the domain: the sum there is two, for every degree from one on."},
  {"property": "C192", "status": "proved", "theorems": ["Verif.Deb.C192_evaluate", "Verif.Deb.C192_ends"], "note": ""},
  {"property": "C193", "status": "proved", "theorems": ["Verif.Deb.C193_hull"], "note": ""},
  {"property": "C194", "status": "partial", "theorems": ["Verif.Deb.C194_first_partial", "Verif.Deb.C194_rows_refuted"], "note": "First row proved. Refuted for every later row whose predecessor is not the origin: the accumulator is not cleared."},
  {"property": "C195", "status": "proved", "theorems": ["Verif.Circ.C195_evaluate", "Verif.Circ.C195_implicit"], "note": ""},
  {"property": "C196", "status": "partial", "theorems": ["Verif.Circ.C196_closest", "Verif.Circ.C196_parameter_refuted", "Verif.Circ.C196_closest_parameter_refuted"], "note": "The point is proved. Refuted for the parameters: right only for points not below the centre (point_on_curve) or on one ray (closest_point_on_circle_2d)."},
  {"property": "C197", "status": "partial", "theorems": ["Verif.Circ.C197_intersection_partial", "Verif.Circ.C197_same_refuted", "Verif.Circ.C197_height_refuted"], "note": "Proved for different centres up to the height. Refuted for two copies of a circle (NaN) and for the third coordinate."},
  {"property": "C198", "status": "partial", "theorems": ["Verif.Circ.C198_tangents_refuted"], "note": "Refuted: right exactly for points on the diagonal through the centre."},
  {"property": "C199", "status": "partial", "theorems": ["Verif.Circ.C199_circle_partial", "Verif.Circ.C199_origin_refuted"], "note": "Radius and plane proved; the centre is at minus the origin. Refuted for every non-zero origin."},
  {"property": "C20", "status": "proved", "theorems": ["Verif.Poly.C20_point_in_polygon", "Verif.Poly.C20_rotate", "Verif.Poly.C20_outside", "Verif.Poly.C20_outside_left"], "note": "the BVH version equals plain ray casting for every point and polygon; parity is the number of edges crossed; invariant under rotating the vertex list; False outside the bounding box"},
  {"property": "C200", "status": "partial", "theorems": ["Verif.Pip.C200_sound", "Verif.Pip.C200_boxes", "Verif.Pip.C200_complete_partial", "Verif.Pip.C200_collinear_refuted", "Verif.Pip.C200_touch_refuted"], "note": "Soundness and the agreement of the two versions proved; completeness when no end is on the other line. Refuted for collinear segments and for touching ones."},
  {"property": "C201", "status": "partial", "theorems": ["Verif.Pip.C201_convex_partial", "Verif.Pip.C201_closed_partial", "Verif.Pip.C201_corner_refuted"], "note": "Proved for all points but the lower left corner of the box. Refuted there for a family of clockwise triangles."},
  {"property": "C202", "status": "partial", "theorems": ["Verif.Par.C202_scale_refuted", "Verif.Par.C202_derivative_refuted", "Verif.Par.C202_second_refuted", "Verif.Par.C202_parabola_refuted"], "note": "Refuted: the results are h^2 and h^4 times the derivatives at a parameter near by."},
  {"property": "C203", "status": "partial", "theorems": ["Verif.Par.C203_curvature", "Verif.Par.C203_curvature_parabola", "Verif.Par.C203_plane", "Verif.Par.C203_plane_parabola", "Verif.Par.C203_tangent_partial", "Verif.Par.C203_slow_refuted"], "note": "Curvature and plane proved (the scales cancel). Tangent proved above a speed; refuted below it."},
  {"property": "C204", "status": "partial", "theorems": ["Verif.Par.C204_reparametrized_refuted"], "note": "Refuted: the result is the origin for every parameter."},
  {"property": "C205", "status": "partial", "theorems": ["Verif.Par.C205_first", "Verif.Par.C205_domain", "Verif.Par.C205_interval_refuted"], "note": "Proved for the domain [0,1]x[0,1]; refuted for other intervals, the limits 0 and 1 are fixed in the code."},
  {"property": "C206", "status": "partial", "theorems": ["Verif.Par.C206_mixed", "Verif.Par.C206_pure_partial", "Verif.Par.C206_quadratic_refuted"], "note": "Mixed derivative proved everywhere, pure ones at distance 2h from the boundary; refuted nearer (half or three quarters of the value)."},
  {"property": "C207", "status": "proved", "theorems": ["Verif.Par.C207_plane"], "note": ""},
  {"property": "C208", "status": "proved", "theorems": ["Verif.Par.C208_rows", "Verif.Par.C208_normal"], "note": ""},
  {"property": "C209", "status": "partial", "theorems": ["Verif.Par.C209_edges", "Verif.Par.C209_derivative_v", "Verif.Par.C209_derivative_u_partial", "Verif.Par.C209_derivative_u_refuted", "Verif.Par.C209_second_uu_refuted"], "note": "Points and derivative_v proved, derivative_u for intervals of length one. Refuted otherwise: the length of the interval is left out."},
  {"property": "C21", "status": "proved", "theorems": ["Verif.Poly.C21_area_formula", "Verif.Poly.C21_rotate", "Verif.Poly.C21_reverse", "Verif.Poly.C21_affine", "Verif.Poly.C21_chord", "Verif.Poly.C21_triangle_and_cut"], "note": "shoelace value, rotation, reversal, affine maps, cutting along a chord"},
  {"property": "C210", "status": "proved", "theorems": ["Verif.Par.C210_corners", "Verif.Par.C210_derivatives"], "note": ""},
  {"property": "C211", "status": "proved", "theorems": ["Verif.Par.C211_bezier", "Verif.Par.C211_derivatives", "Verif.Par.C211_tangents"], "note": ""},
  {"property": "C212", "status": "partial", "theorems": ["Verif.Mol.C212_sound", "Verif.Mol.C212_complete", "Verif.Mol.C212_none", "Verif.Mol.C212_parallel_refuted", "Verif.Mol.C212_scale_refuted", "Verif.Mol.C212_flag"], "note": "Soundness and completeness proved for determinants above the tolerance. Refuted for segments in the plane and for every crossing scaled down enough: the test for parallelism is absolute."},
  {"property": "C213", "status": "partial", "theorems": ["Verif.Mol.C213_boundary", "Verif.Mol.C213_interior_partial", "Verif.Mol.C213_scale_refuted"], "note": "Vertices and edges proved, the interior away from the tolerance. Refuted for small triangles: all points are vertices."},
  {"property": "C214", "status": "partial", "theorems": ["Verif.Mol.C214_serial", "Verif.Mol.C214_first", "Verif.Mol.C214_flag_refuted"], "note": "The arrays and the first hit are proved; the flag of the first hit is always 1, refuting the documentation."},
  {"property": "C215", "status": "partial", "theorems": ["Verif.Mol.C215_one_by_one_partial", "Verif.Mol.C215_race_refuted", "Verif.Mol.C215_serial_refuted"], "note": "Refuted: the threads share the copy of the triangle, and there is an execution with the flag of another triangle. Proved when the threads run one after the other."},
  {"property": "C216", "status": "partial", "theorems": ["Verif.Boo.C216_groups", "Verif.Boo.C216_apart", "Verif.Boo.C216_order", "Verif.Boo.C216_idempotent", "Verif.Boo.C216_near_partial", "Verif.Boo.C216_chain_refuted"], "note": "All but the last part proved; that one holds with a factor and is refuted by chains."},
  {"property": "C217", "status": "partial", "theorems": ["Verif.Boo.C217_select", "Verif.Boo.C217_partition", "Verif.Boo.C217_unknown", "Verif.Boo.C217_count", "Verif.Boo.C217_disjoint_refuted"], "note": "Proved for curves with a common point. Refuted without: the call raises."},
  {"property": "C218", "status": "partial", "theorems": ["Verif.Boo.C218_inside", "Verif.Boo.C218_outside_partial", "Verif.Boo.C218_far_refuted", "Verif.Boo.C218_touch_refuted", "Verif.Boo.C218_plane_refuted"], "note": "For circles: middles inside proved, outside if the ray ends outside and does not touch. Refuted for middles whose ray ends in the disc, for tangent rays and for curves in a plane across the x axis."},
  {"property": "C219", "status": "partial", "theorems": ["Verif.March.C219_near_partial", "Verif.March.C219_plane", "Verif.March.C219_sphere", "Verif.March.C219_critical_refuted"], "note": "Proved for functions with quadratic remainder and no critical point, exactly for planes, and with termination for spheres and circles from every start but the centre. Refuted at critical points, which are returned as they are."},
  {"property": "C22", "status": "proved", "theorems": ["Verif.Poly.C22_intersect_sound", "Verif.Poly.C22_intersect_complete", "Verif.Poly.C22_intersect_none"], "note": "sound, complete in the open parameter range, none otherwise"},
  {"property": "C220", "status": "partial", "theorems": ["Verif.March.C220_near_partial", "Verif.March.C220_planes", "Verif.March.C220_values", "Verif.March.C220_report", "Verif.March.C220_parallel_refuted", "Verif.March.C220_concentric_refuted", "Verif.March.C220_values_refuted"], "note": "Proved where the gradients are not parallel, exactly for planes. Refuted for starts with parallel gradients (returned with success), for all starts with concentric spheres, and for the values returned, which belong to the last iterate but one."},
  {"property": "C221", "status": "partial", "theorems": ["Verif.March.C221_points", "Verif.March.C221_count", "Verif.March.C221_bounds_partial", "Verif.March.C221_line", "Verif.March.C221_end", "Verif.March.C221_circle", "Verif.March.C221_open_refuted", "Verif.March.C221_bounds_refuted"], "note": "Points and number proved for every solver; lines exactly, circles with termination after one turn. Refuted: the last point may be out of bounds, open curves never end without a limit."},
  {"property": "C222", "status": "partial", "theorems": ["Verif.March.C222_ends", "Verif.March.C222_line", "Verif.March.C222_open_refuted", "Verif.March.C222_count_refuted"], "note": "Ends and points proved, lines exactly. Refuted: end points less than one and a half steps ahead are passed; one point more than max_points."},
  {"property": "C223", "status": "partial", "theorems": ["Verif.March.Iter.C223_terminates", "Verif.March.Iter.C223_covered", "Verif.March.Iter.C223_starts", "Verif.March.Iter.C223_open_refuted"], "note": "All but the last part proved. Refuted for curves ending at the bounds: they are followed in one direction only."},
  {"property": "C224", "status": "proved", "theorems": ["Verif.Cp.C224_closest", "Verif.Cp.minDistance_spec"], "note": "Distances over the reals; for every distance bounding the coordinate differences over every ordered field."},
  {"property": "C225", "status": "partial", "theorems": ["Verif.Cp.C225_result_partial", "Verif.Cp.C225_interval_partial", "Verif.Cp.C225_minimum_partial", "Verif.Cp.C225_interval_refuted", "Verif.Cp.C225_minimum_refuted"], "note": "Termination, value and the ends proved; the minimum when every half-unit piece has one minimum; the interval when its length is a multiple of one half. Refuted: for every other interval the parameter may lie past the end, with a distance less than that of the curve; two minima in a piece."},
  {"property": "C226", "status": "partial", "theorems": ["Verif.Ccx.C226_search_partial", "Verif.Ccx.C226_near_partial", "Verif.Ccx.C226_speed_partial", "Verif.Ccx.C226_tolerance_refuted", "Verif.Ccx.C226_interval_refuted"], "note": "Found pairs within tolerance and interval (intervals not longer than one), groups and order proved; returned pairs within the rounding of found ones; distance bound for curves of bounded speed. Refuted: the mean of merged pairs may be farther than tol apart; parameters past the end of every interval longer than one with fractional length."},
  {"property": "C227", "status": "partial", "theorems": ["Verif.Ccx.C227_terminates", "Verif.Ccx.C227_nonempty_partial", "Verif.Ccx.C227_segments", "Verif.Ccx.eager_encl", "Verif.Ccx.C227_middle_refuted", "Verif.Ccx.C227_three_refuted", "Verif.Ccx.C227_eager_refuted"], "note": "Termination for curves of bounded speed; nonempty where coordinates are monotone; crossing segments: nonempty and every parameter near the crossing. Refuted: only one pair if the middles are near; boxes of eight samples lose intersections."},
  {"property": "C228", "status": "partial", "theorems": ["Verif.Ccx.C228_terminates", "Verif.Ccx.C228_roots_partial", "Verif.Ccx.C228_found_partial", "Verif.Ccx.C228_sign_refuted", "Verif.Ccx.C228_boundary_refuted", "Verif.Ccx.C228_tangent_refuted", "Verif.Ccx.C228_outside_refuted"], "note": "Termination, distinct roots and roots inside monotone pieces proved. Refuted: every function without change of sign inside a piece has the empty result (roots at the ends of pieces, tangential roots); roots past the end of the interval are returned."},
  {"property": "C229", "status": "partial", "theorems": ["Verif.Ccx.C229_dispatch_partial", "Verif.Ccx.C229_implicit_refuted", "Verif.Ccx.C229_order_refuted"], "note": "Dispatch proved for curves with a parametric form. Refuted: two implicit curves always raise TypeError; with both forms on both sides the parameters are always those of the second curve."},
  {"property": "C23", "status": "partial", "theorems": ["Verif.Poly.C23_clip_inside_partial", "Verif.Poly.C23_clip_keeps", "Verif.Poly.C23_clip_returns_refuted"], "note": "result points satisfy every clip half-plane and come from the subject; a subject inside is kept; refuted: clip raises IndexError when an intermediate polygon becomes empty"},
  {"property": "C230", "status": "partial", "theorems": ["Verif.Gm.C230_gauss_map_partial", "Verif.Gm.C230_orthogonal", "Verif.Gm.bezier_unique"], "note": "Proved for degrees up to fifteen in each direction (above, the product needs binomial coefficients beyond the table, see C113)."},
  {"property": "C231", "status": "partial", "theorems": ["Verif.Gm.C231_cone_partial", "Verif.Gm.C231_separated_partial", "Verif.Gm.C231_child_refuted", "Verif.Gm.C231_degenerate_refuted"], "note": "Cone and separation proved for the vectors of from_surf. Refuted: for the children of subdivide (halves of the map of unit vectors do not bound the normals); patches with a degenerate edge give nan."},
  {"property": "C232", "status": "partial", "theorems": ["Verif.Gm.C232_separate_refuted", "Verif.Gm.C232_exists", "Verif.Gm.C232_sound_partial"], "note": "Refuted: the function always returns (None, None), because the equation epsilon = 0 contradicts the check epsilon < 0, while separating vectors exist. Sound for a solver without the equation."},
  {"property": "C233", "status": "partial", "theorems": ["Verif.Gm.C233_sound", "Verif.Gm.C233_terminates", "Verif.Gm.C233_complete_partial", "Verif.Gm.C233_flat_refuted", "Verif.Gm.C233_flat_refuted'"], "note": "Soundness and termination proved; completeness under the condition that no pair with the point is rejected as flat. Refuted: flat patches parallel to a coordinate plane give no pair with any surface."},
  {"property": "C234", "status": "partial", "theorems": ["Verif.Gm.C234_constant_refuted"], "note": "Refuted: equal weights always give nan (division by the coefficients of the weight polynomial, element by element)."},
  {"property": "C235", "status": "partial", "theorems": ["Verif.Gm.C235_planar_partial", "Verif.Gm.C235_flat_refuted", "Verif.Gm.C235_degenerate_refuted"], "note": "Planar patches with three corners not on a line are flat. Refuted: surfaces of any height are flat at every tolerance; planar patches with two coinciding corners are not."},
  {"property": "C236", "status": "proved", "theorems": ["Verif.Skip.C236_items", "Verif.Skip.C236_getitem", "Verif.Skip.C236_heights"], "note": "For all histories and heights."},
  {"property": "C237", "status": "partial", "theorems": ["Verif.Skip.C237_delete_refuted", "Verif.Skip.C237_lost_refuted", "Verif.Skip.C237_pred_refuted", "Verif.Skip.C237_absent_partial", "Verif.Skip.C237_first_partial"], "note": "Refuted: deleting a key which is there also loses all smaller keys from the iteration, and the length no longer is the number of pairs; backward links keep the deleted node. Correct for keys which are not there, and for the pairs when the key is the smallest."},
  {"property": "C238", "status": "partial", "theorems": ["Verif.Skip.C238_neighbours", "Verif.Skip.C238_locate_refuted", "Verif.Skip.C238_locate_tail_refuted", "Verif.Skip.C238_locate_partial"], "note": "succ, pred, min, lookup proved. locate refuted: for a key which is there it gives the first node of all, and for a key above all the sentinel instead of None; correct for a key which is not there but below some key."},
  {"property": "C239", "status": "proved", "theorems": ["Verif.Skip.C239_run", "Verif.Skip.C239_reverse_twice"], "note": "For all histories."},
  {"property": "C24", "status": "partial", "theorems": ["Verif.Poly.C24_chain", "Verif.Poly.C24_convex", "Verif.Poly.C24_hull_partial", "Verif.Poly.C24_encloses_refuted"], "note": "input points only, strictly convex counter-clockwise from the lowest point; same hull as the input when near-collinear triples are collinear (integer points); refuted for small polygons because the tolerance is absolute"},
  {"property": "C240", "status": "proved", "theorems": ["Verif.Par.C240_closed", "Verif.Par.C240_near", "Verif.Par.C240_bound"], "note": ""},
  {"property": "C241", "status": "proved", "theorems": ["Verif.Par.C241_quadratic", "Verif.Par.C241_mean", "Verif.Par.C241_orthogonal"], "note": ""},
  {"property": "C242", "status": "partial", "theorems": ["Verif.Knot.C242_compose", "Verif.Knot.C242_gap_refuted"], "note": "Holds for curves that meet; nothing checks that they do: the first control point of the later curves is ignored."},
  {"property": "C243", "status": "proved", "theorems": ["Verif.Knot.C243_compose_normalized"], "note": ""},
  {"property": "C244", "status": "partial", "theorems": ["Verif.Knot.C244_elevate_columns", "Verif.Knot.C244_elevate_partial", "Verif.Knot.C244_rational_refuted", "Verif.Knot.C244_zero_raises"], "note": "Holds for equal weights (and for each column of the control points separately) up to degree 30; a segment with two different weights is changed, num = 0 raises."},
  {"property": "C245", "status": "partial", "theorems": ["Verif.Knot.C245_merge_partial", "Verif.Knot.C245_close_knots_refuted"], "note": "Holds when np.isclose separates the knots; two different close knots are doubled."},
  {"property": "C246", "status": "partial", "theorems": ["Verif.Knot.C246_refine_partial", "Verif.Knot.C246_refine_points_partial", "Verif.Knot.C246_single_knot_refuted", "Verif.Knot.C246_too_many_refuted"], "note": "Holds when the argument is the whole refined knot vector; a single knot to insert is ignored. Points for equal weights (insert_knot ignores weights, see C36)."},
  {"property": "C247", "status": "partial", "theorems": ["Verif.Knot.C247_ruled_value", "Verif.Knot.C247_ruled_partial", "Verif.Knot.C247_weights_refuted"], "note": "Holds for weights 1 with knots equal or separated by the tolerances; with all weights w the surface is divided by w."},
  {"property": "C248", "status": "partial", "theorems": ["Verif.Knot.C248_clamped", "Verif.Knot.C248_unclamped", "Verif.Knot.C248_normalize", "Verif.Knot.C248_rejects", "Verif.Knot.C248_few_points_refuted", "Verif.Knot.C248_decreasing_refuted"], "note": "Holds for more control points than the degree; with fewer a constant or a decreasing vector is returned without an error."},
  {"property": "C249", "status": "partial", "theorems": ["Verif.Knot.C249_find_knot_span", "Verif.Knot.C249_outside_refuted", "Verif.Knot.C249_binsearch_partial", "Verif.Knot.C249_binsearch_end", "Verif.Knot.C249_binsearch_refuted"], "note": "Holds in the domain and further than the tolerance from its end; outside the domain the loops do not end, within the tolerance of the end the last span is returned."},
  {"property": "C25", "status": "proved", "theorems": ["Verif.Bvh.C25_build", "Verif.Bvh.C25_build_single", "Verif.Bvh.C25_build_empty"], "note": "leaves are the objects, depth at most ceil(log2 n)+1, boxes smallest; empty list raises"},
  {"property": "C250", "status": "partial", "theorems": ["Verif.Knot.C250_duplicates_partial", "Verif.Knot.C250_chain_refuted", "Verif.Knot.C250_far_refuted", "Verif.Knot.C250_repeat_refuted"], "note": "Holds when neighbours are equal or further apart than the tolerance; a chain of small steps loses all points but the first."},
  {"property": "C251", "status": "proved", "theorems": ["Verif.Knot.C251_interpolate", "Verif.Knot.C251_regular", "Verif.Knot.C251_knots", "Verif.Knot.C251_params", "Verif.Knot.C251_params_equal", "Verif.Knot.C251_few_points_refuted"], "note": "The linear solver (scipy lu_factor, lu_solve) is a parameter that solves every system with a regular matrix."},
  {"property": "C252", "status": "partial", "theorems": ["Verif.Knot.C252_ends", "Verif.Knot.C252_knots_refuted", "Verif.Knot.C252_gap_refuted", "Verif.Knot.C252_weights_refuted", "Verif.Knot.C252_first_partial"], "note": "The right ends are taken and the first curve is kept; the joined curve has too many knots, nothing checks the gap, weights are lost."},
  {"property": "C253", "status": "proved", "theorems": ["Verif.Csx.C253_sound", "Verif.Csx.C253_distinct", "Verif.Csx.C253_nurbs"], "note": "Newton's method and the separation tests are parameters, the degeneracy flag of C253_nurbs as well; C253_sound is for any objects that meet Spec, C253_nurbs for NURBS with equal weights (Spec proved from C56 and C65)."},
  {"property": "C254", "status": "proved", "theorems": ["Verif.Csx.C254_terminates", "Verif.Csx.C254_bounded", "Verif.Csx.C254_nurbs"], "note": "C254_terminates gives the bound; C254_nurbs is for curves with weights 1."},
  {"property": "C255", "status": "partial", "theorems": ["Verif.Csx.C255_edge_refuted", "Verif.Csx.C255_edge_refuted'", "Verif.Csx.C255_end_refuted", "Verif.Csx.C255_short_refuted", "Verif.Csx.C255_complete_partial"], "note": "False as stated: a point at an edge of the patch ends the search, a point at an end of the curve or a short curve raises. C255_complete_partial holds under hypotheses on the tests that the code does not ensure."},
  {"property": "C256", "status": "partial", "theorems": ["Verif.Csx.C256_empty_refuted", "Verif.Csx.C256_apart_refuted", "Verif.Csx.C256_sorted_partial", "Verif.Csx.C256_unconverged_refuted", "Verif.Csx.C256_refine_partial", "Verif.Csx.C256_bounds", "Verif.Csx.C256_newton"], "note": "Sorted when there are intersections; raises ValueError when there are none; newton_raphson returns unconverged parameters."},
  {"property": "C257", "status": "partial", "theorems": ["Verif.Csx.C257_isocurve_u", "Verif.Csx.C257_isocurve_v", "Verif.Csx.C257_isocurve_partial", "Verif.Csx.C257_weights_refuted", "Verif.Csx.C257_rational_refuted", "Verif.Csx.C257_range"], "note": "Holds for weights 1; for equal weights w the curve is w times the surface, and it is wrong for different weights."},
  {"property": "C258", "status": "proved", "theorems": ["Verif.Csx.C258_params", "Verif.Csx.C258_start_params", "Verif.Csx.C258_dedup", "Verif.Csx.C258_find", "Verif.Csx.C258_boundary"], "note": "The intersections of a boundary with the other surface are parameters (C253)."},
  {"property": "C259", "status": "partial", "theorems": ["Verif.Csx.C259_pairs", "Verif.Csx.C259_pairing_refuted"], "note": "Every point is used once and pairs are nearest neighbours; the pairs need not be ends of the same curve."},
  {"property": "C26", "status": "proved", "theorems": ["Verif.Bvh.C26_traverse", "Verif.Bvh.C26_traverse_groups", "Verif.Bvh.C26_contains_point", "Verif.Bvh.C26_pairs"], "note": "box query, point query, pairs; larger leaves lose nothing"},
  {"property": "C260", "status": "partial", "theorems": ["Verif.Csx.C260_wedge", "Verif.Csx.C260_wedges_partial", "Verif.Csx.C260_wedges_refuted", "Verif.Csx.C260_separated_refuted", "Verif.Csx.C260_shared_direction_refuted", "Verif.Csx.C260_circles_refuted", "Verif.Csx.C260_spherical", "Verif.Csx.C260_empty"], "note": "Right when the largest gap of both sets is the one over plus or minus pi, wrong in every other case; the linear program always has a solution, so the second test never answers True."},
  {"property": "C261", "status": "partial", "theorems": ["Verif.Pinv.C261_previous_refuted", "Verif.Pinv.C261_line_refuted", "Verif.Pinv.C261_division_refuted", "Verif.Pinv.C261_inversion_partial"], "note": "Every criterion ends the loop before the new iterate is stored: the previous one is returned, on a line always the guess. C261_inversion_partial characterises what is returned."},
  {"property": "C262", "status": "partial", "theorems": ["Verif.Pinv.C262_previous_refuted", "Verif.Pinv.C262_plane_refuted", "Verif.Pinv.C262_singular", "Verif.Pinv.C262_inversion_partial"], "note": "As C261; on a plane the guess is returned for every point."},
  {"property": "C263", "status": "partial", "theorems": ["Verif.Pinv.C263_plane_refuted", "Verif.Pinv.C263_zero_refuted", "Verif.Pinv.C263_origin_refuted", "Verif.Pinv.C263_inversion_partial"], "note": "On a plane the guess for every point; (0, 0) for a point that has not converged; the size of the iterate is tested instead of the size of the step."},
  {"property": "C264", "status": "partial", "theorems": ["Verif.Ssx.C264_fails_iff", "Verif.Ssx.C264_solves", "Verif.Ssx.C264_swap_refuted", "Verif.Ssx.C264_plane_refuted", "Verif.Ssx.C264_plane_partial", "Verif.Ssx.C264_py_partial", "Verif.Ssx.C264_py_refuted"], "note": "Correct when it succeeds; the minors are compared with their sign, so that one of the two orders of the derivatives is rejected, and then the point inversion returns the old parameters (C262)."},
  {"property": "C265", "status": "partial", "theorems": ["Verif.Ssx.C265_pop_partial", "Verif.Ssx.C265_closest_partial", "Verif.Ssx.C265_delete_refuted"], "note": "Correct for construction, pop and get_closest; del does not remove anything but the count."},
  {"property": "C266", "status": "partial", "theorems": ["Verif.Ssx.C266_sagitta", "Verif.Ssx.C266_refine", "Verif.Ssx.C266_planes_refuted", "Verif.Ssx.C266_tolerance_refuted", "Verif.Ssx.C266_tolerance_refuted'", "Verif.Ssx.C266_aligned_refuted", "Verif.Ssx.C266_sharp_refuted", "Verif.Ssx.C266_edge"], "note": "The chord has the sagitta tol, but the point is taken on the tangent: for every circle it is off by more than tol. Two planes raise ZeroDivisionError; no step where tangent and second normal are orthogonal to x, or where the radius is less than tol / 2."},
  {"property": "C267", "status": "partial", "theorems": ["Verif.Ssx.C267_trace", "Verif.Ssx.C267_closed_refuted"], "note": "Chain and lengths hold; a closed curve ends in its second point with the parameters of the first."},
  {"property": "C268", "status": "partial", "theorems": ["Verif.Ssx.solves_march", "Verif.Ssx.C268_starts_partial", "Verif.Ssx.C268_missed_refuted"], "note": "All start points are used; a start point of another curve within twice the step is lost."},
  {"property": "C269", "status": "partial", "theorems": ["Verif.Ssx.C269_found_partial", "Verif.Ssx.C269_parameters_refuted", "Verif.Ssx.C269_aligned_refuted", "Verif.Ssx.C269_domain_partial"], "note": "The test is on the points one iteration before; the parameters returned are not evaluated."},
  {"property": "C27", "status": "partial", "theorems": ["Verif.Bvh.C27_vicinity", "Verif.Bvh.C27_breadth_partial", "Verif.Bvh.C27_breadth_refuted"], "note": "the vicinity search is exact when the point is in some box; the default breadth search is greedy and refuted"},
  {"property": "C270", "status": "proved", "theorems": ["Verif.Ssx.C270_kept"], "note": "The points found and their distance from the surfaces are those of C258."},
  {"property": "C271", "status": "proved", "theorems": ["Verif.Srf.C271_agree", "Verif.Srf.C271_bilinear", "Verif.Srf.C271_blossom"], "note": "The compiled class is also treated in C210."},
  {"property": "C272", "status": "partial", "theorems": ["Verif.Srf.C272_edges_partial", "Verif.Srf.C272_compiled", "Verif.Srf.C272_edges_refuted", "Verif.Srf.C272_derivative_v", "Verif.Srf.C272_derivative_u_partial", "Verif.Srf.C272_derivative_u_refuted", "Verif.Srf.C272_second_partial"], "note": "The parameter is multiplied by the end of the interval: right for intervals beginning at 0; the derivatives along u lack the factor."},
  {"property": "C273", "status": "partial", "theorems": ["Verif.Srf.C273_boundary_partial", "Verif.Srf.C273_meet", "Verif.Srf.C273_bilinear", "Verif.Srf.C273_boundary_refuted"], "note": "Holds when each pair of opposite curves is compiled or has intervals beginning at 0."},
  {"property": "C274", "status": "partial", "theorems": ["Verif.Srf.C274_isocurve_partial", "Verif.Srf.C274_default_refuted", "Verif.Srf.C274_v_refuted", "Verif.Srf.C274_isoline", "Verif.Srf.C274_isoline_range", "Verif.Srf.C274_isocurveU_partial"], "note": "The entries of the domain are taken in the wrong order and all arguments are compared with the interval of u; the isolines assume [0, 1]."},
  {"property": "C275", "status": "proved", "theorems": ["Verif.Srf.C275_cover", "Verif.Srf.C275_rect", "Verif.Srf.C275_count"], "note": "Points of the quads and the tree over them are those of the surface and of build_bvh."},
  {"property": "C276", "status": "partial", "theorems": ["Verif.Srf.C276_frame_partial", "Verif.Srf.C276_second_axis_refuted"], "note": "Orthogonal, but the second axis is not of length one unless the derivatives are orthogonal."},
  {"property": "C277", "status": "partial", "theorems": ["Verif.Srf.C277_tangent", "Verif.Srf.C277_curvature_partial", "Verif.Srf.C277_angle_refuted", "Verif.Srf.C277_speed_refuted"], "note": "Right only for orthonormal parameter directions and surfaces at a right angle."},
  {"property": "C278", "status": "partial", "theorems": ["Verif.Srf.C278_call", "Verif.Srf.C278_y", "Verif.Srf.C278_x", "Verif.Srf.C278_linear_map_refuted", "Verif.Srf.C278_linear_map_partial"], "note": "TwoPointForm is right; LinearMap multiplies by the inner product of the intervals."},
  {"property": "C279", "status": "partial", "theorems": ["Verif.Crv.C279_line", "Verif.Crv.C279_quadratic_partial", "Verif.Crv.C279_interval_refuted", "Verif.Crv.C279_inside_partial", "Verif.Crv.C279_inside_refuted"], "note": "The bounds used are 0 and 1, not those of the curve."},
  {"property": "C28", "status": "partial", "theorems": ["Verif.Bvh.C28_split_half_partial", "Verif.Bvh.C28_expand_partial", "Verif.Bvh.C28_split_parameter_refuted", "Verif.Bvh.C28_stale_refuted", "Verif.Bvh.C28_stale_all_refuted", "Verif.Bvh.C28_split_parameter_all_refuted", "Verif.Bvh.C28_split8_partial"], "note": "split at 1/2, expand, merge, intersection correct for contains_point; refuted: other parameters, and intersect reads a stale array after split/expand"},
  {"property": "C280", "status": "partial", "theorems": ["Verif.Crv.C280_quadratic_partial", "Verif.Crv.C280_ends_refuted"], "note": "Exact in the middle; three quarters of the value at both ends of [0, 1]."},
  {"property": "C281", "status": "partial", "theorems": ["Verif.Crv.C281_split_partial", "Verif.Crv.C281_second_refuted", "Verif.Crv.C281_ends_refuted", "Verif.Crv.C281_ends_partial"], "note": "The second derivative of the pieces is the first; start cannot be read and end cannot be set; extend has no effect."},
  {"property": "C282", "status": "partial", "theorems": ["Verif.Crv.C282_node", "Verif.Crv.C282_derivative", "Verif.Crv.C282_empty_refuted"], "note": "Holds; disjoint intervals give a reversed interval instead of an error."},
  {"property": "C283", "status": "proved", "theorems": ["Verif.Crv.C283_inverse", "Verif.Crv.C283_clamped"], "note": "np.interp is taken as documented."},
  {"property": "C284", "status": "partial", "theorems": ["Verif.Crv.C284_sum_partial", "Verif.Crv.C284_reversed_refuted", "Verif.Crv.C284_error"], "note": "Right for increasing bounds; for decreasing bounds more than 4 apart the middle is left out."},
  {"property": "C285", "status": "partial", "theorems": ["Verif.Crv.C285_within_partial", "Verif.Crv.C285_exact", "Verif.Crv.C285_outside", "Verif.Crv.C285_queries_partial", "Verif.Crv.C285_t0_refuted", "Verif.Crv.C285_extend_refuted"], "note": "Right for the interval of the first call; t0 has no influence and extend is not seen."},
  {"property": "C286", "status": "proved", "theorems": ["Verif.Crv.C286_nodes", "Verif.Crv.C286_exact"], "note": "The integral is taken as exact; interp1d as documented."},
  {"property": "C287", "status": "proved", "theorems": ["Verif.Crv.C287_segments"], "note": "The points come from the curve, the tree from build_bvh."},
  {"property": "C288", "status": "partial", "theorems": ["Verif.Crv.C288_circle_refuted", "Verif.Crv.C288_derivative_refuted", "Verif.Crv.C288_direction_partial"], "note": "The factor of the chain rule is missing; circle_of_curvature calls itself."},
  {"property": "C289", "status": "partial", "theorems": ["Verif.Swl.C289_antisymm", "Verif.Swl.C289_lex_partial", "Verif.Swl.C289_transitive_refuted", "Verif.Swl.C289_eq_refuted"], "note": "Antisymmetric, and lexicographic where coordinates are equal or well apart; for every tolerance there is a cycle."},
  {"property": "C29", "status": "proved", "theorems": ["Verif.ImplTree.C29_quadtree", "Verif.ImplTree.C29_octree", "Verif.ImplTree.C29_quadtree_size", "Verif.ImplTree.C29_octree_size"], "note": ""},
  {"property": "C290", "status": "proved", "theorems": ["Verif.Swl.C290_above", "Verif.Swl.C290_vertical"], "note": "Exact arithmetic."},
  {"property": "C291", "status": "proved", "theorems": ["Verif.Swl.C291_raises", "Verif.Swl.C291_start", "Verif.Swl.C291_touch", "Verif.Swl.C291_antisymm"], "note": "Exact arithmetic; segments from left to right."},
  {"property": "C292", "status": "partial", "theorems": ["Verif.Swl.C292_none", "Verif.Swl.C292_point", "Verif.Swl.C292_exact_refuted"], "note": "Holds but for ends within the tolerance of each other, which are returned though off the other line."},
  {"property": "C293", "status": "proved", "theorems": ["Verif.Swl.C293_test", "Verif.Swl.C293_inserted"], "note": "Segments that are not vertical; no ends within the tolerance for the inserted point."},
  {"property": "C294", "status": "partial", "theorems": ["Verif.Swl.C294_members", "Verif.Swl.C294_order", "Verif.Swl.C294_copies_refuted"], "note": "Right for one segment; of several copies only the last keeps its points."},
  {"property": "C295", "status": "proved", "theorems": ["Verif.Swl.C295_between", "Verif.Swl.C295_ends"], "note": ""},
  {"property": "C296", "status": "proved", "theorems": ["Verif.Swl.C296_ring"], "note": ""},
  {"property": "C297", "status": "partial", "theorems": ["Verif.Rtn.C297_min", "Verif.Rtn.C297_max", "Verif.Rtn.C297_argument_refuted", "Verif.Rtn.C297_similar"], "note": "The results are right; the first argument is overwritten with the result."},
  {"property": "C298", "status": "proved", "theorems": ["Verif.Rtn.C298_product", "Verif.Rtn.C298_members", "Verif.Rtn.C298_corners"], "note": ""},
  {"property": "C299", "status": "proved", "theorems": ["Verif.Rtn.C299_uvs", "Verif.Rtn.C299_linspace"], "note": ""},
  {"property": "C30", "status": "proved", "theorems": ["Verif.ImplTree.C30_collapse2d", "Verif.ImplTree.C30_collapse3d", "Verif.ImplTree.C30_corners", "Verif.ImplTree.C30_corners3"], "note": ""},
  {"property": "C300", "status": "proved", "theorems": ["Verif.Rtn.C300_split", "Verif.Rtn.C300_negative", "Verif.Rtn.C300_roundtrip", "Verif.Rtn.C300_add"], "note": "Nonempty arrays."},
  {"property": "C301", "status": "partial", "theorems": ["Verif.Rtn.C301_flatten", "Verif.Rtn.C301_sizes_partial", "Verif.Rtn.C301_extra_refuted"], "note": "There is always one more piece, an empty one when the sizes use up the array."},
  {"property": "C302", "status": "partial", "theorems": ["Verif.Rtn.C302_matrix", "Verif.Rtn.C302_vector_partial", "Verif.Rtn.C302_vector_refuted"], "note": "A vector as long as the matrix has rows becomes a column."},
  {"property": "C303", "status": "proved", "theorems": ["Verif.Apc.C303_none", "Verif.Apc.C303_through", "Verif.Apc.C303_unique"], "note": "Exact arithmetic; square root by its law."},
  {"property": "C304", "status": "partial", "theorems": ["Verif.Apc.C304_history_partial", "Verif.Apc.C304_shared_refuted", "Verif.Apc.C304_copy_refuted", "Verif.Apc.C304_argument_refuted"], "note": "Holds for every history of one circle; a center shared by two circles, the center of a copy and a center given with a plane behave differently."},
  {"property": "C305", "status": "partial", "theorems": ["Verif.Apc.C305_normal_refuted", "Verif.Apc.C305_create_refuted"], "note": "Neither holds: the normal is only stored, and create_by_center always gives the unit circle at the origin."},
  {"property": "C306", "status": "partial", "theorems": ["Verif.Apc.C306_origin_partial", "Verif.Apc.C306_center_refuted"], "note": "Only for circles about the origin."},
  {"property": "C307", "status": "proved", "theorems": ["Verif.Apc.C307_nested", "Verif.Apc.C307_distance"], "note": ""},
  {"property": "C308", "status": "partial", "theorems": ["Verif.Apc.C308_create_refuted", "Verif.Apc.C308_circle_partial", "Verif.Apc.C308_tsz_partial", "Verif.Apc.C308_height_refuted", "Verif.Apc.C308_order_refuted", "Verif.Apc.C308_touch_refuted"], "note": "No line class can be instantiated; the results of line_line_tsz are in the other order and the third is a height."},
  {"property": "C309", "status": "partial", "theorems": ["Verif.Apc.C309_frame", "Verif.Apc.C309_arguments_refuted", "Verif.Apc.C309_error_refuted"], "note": "The frame is right; the second and third argument are overwritten, also when an error is raised."},
  {"property": "C31", "status": "proved", "theorems": ["Verif.DnC.C31_min", "Verif.DnC.C31_iterative", "Verif.DnC.C31_versions_agree", "Verif.DnC.C31_max", "Verif.DnC.C31_any", "Verif.DnC.C31_zero_tolerance", "Verif.DnC.C31_plateau_refuted"], "note": "for strictly unimodal functions; a plateau defeats the search (refuted without strictness)"},
  {"property": "C310", "status": "partial", "theorems": ["Verif.Apc.C310_dot_refuted", "Verif.Apc.C310_angle"], "note": "dot raises for all arguments; angle is right."},
  {"property": "C311", "status": "partial", "theorems": ["Verif.Apc.C311_first_partial", "Verif.Apc.C311_second_refuted", "Verif.Apc.C311_strokes"], "note": "The second derivative does not exist."},
  {"property": "C312", "status": "proved", "theorems": ["Verif.Tes.C312_ring", "Verif.Tes.C312_degrees"], "note": ""},
  {"property": "C313", "status": "partial", "theorems": ["Verif.Tes.C313_edges_partial", "Verif.Tes.C313_closed_refuted", "Verif.Tes.C313_hole_partial", "Verif.Tes.C313_hole_refuted"], "note": "Edges hold when at most the last loop repeats its first point, hole points for convex holes; both fail otherwise."},
  {"property": "C314", "status": "partial", "theorems": ["Verif.Tes.C314_counts_partial", "Verif.Tes.C314_first_refuted", "Verif.Tes.C314_default_refuted", "Verif.Tes.C314_density_partial"], "note": "Holds for both counts and for the second alone; the first alone has no influence, and without counts there is no default."},
  {"property": "C315", "status": "partial", "theorems": ["Verif.Tes.C315_segments_partial", "Verif.Tes.C315_raises_refuted", "Verif.Tes.C315_corners_refuted", "Verif.Tes.C315_inner_refuted"], "note": "Every call raises; the vertices and segments prepared are closed polygons with edges of length zero in the corners, and the inner points mix up corners and intervals."},
  {"property": "C316", "status": "partial", "theorems": ["Verif.Tes.C316_vertices_partial", "Verif.Tes.C316_interval_refuted"], "note": "The grid is always on the unit square."},
  {"property": "C317", "status": "partial", "theorems": ["Verif.Opt.C317_inside_refuted", "Verif.Opt.C317_open_partial", "Verif.Opt.C317_polygon_refuted", "Verif.Opt.C317_implicit"], "note": "The ray is a line, so points inside closed curves are never found; implicit curves are right."},
  {"property": "C318", "status": "partial", "theorems": ["Verif.Opt.C318_feasible", "Verif.Opt.C318_stationary", "Verif.Opt.C318_minimum", "Verif.Opt.C318_singular_refuted"], "note": "Dependent constraints raise."},
  {"property": "C319", "status": "partial", "theorems": ["Verif.Opt.C319_step", "Verif.Opt.C319_affine", "Verif.Opt.C319_singular_refuted"], "note": "Singular systems raise."},
  {"property": "C32", "status": "partial", "theorems": ["Verif.DnC.C32_upper_end", "Verif.DnC.C32_root_partial", "Verif.DnC.C32_root_refuted"], "note": "recursive_divide_and_conquer_roots always converges to the upper end of the range; refuted for a function with a root elsewhere."},
  {"property": "C320", "status": "partial", "theorems": ["Verif.Opt.C320_constraint_partial", "Verif.Opt.C320_below_refuted", "Verif.Opt.C320_solution", "Verif.Opt.C320_gradient_refuted", "Verif.Opt.C320_objective"], "note": "The second point may lie anywhere below the plane, and the gradients are off by a factor or belong to the other branch; common points on the plane are zeros."},
  {"property": "C321", "status": "partial", "theorems": ["Verif.Opt.C321_offset_refuted"], "note": "The property calls itself."},
  {"property": "C322", "status": "partial", "theorems": ["Verif.Opt.C322_det_refuted", "Verif.Opt.C322_exact_partial", "Verif.Opt.C322_plane_refuted"], "note": "Right where the plane chosen is not degenerate; the determinant is not the one needed."},
  {"property": "C323", "status": "partial", "theorems": ["Verif.Opt.C323_tangent", "Verif.Opt.C323_second_refuted"], "note": "The function with parameters uses the first surface twice."},
  {"property": "C324", "status": "partial", "theorems": ["Verif.Opt.C324_shape", "Verif.Opt.C324_negative_refuted"], "note": "Negative counts are not rejected."},
  {"property": "C325", "status": "partial", "theorems": ["Verif.Opt.C325_scalar_partial", "Verif.Opt.C325_array_refuted"], "note": "Numbers only; for arrays the function itself is returned or an error is raised."},
  {"property": "C326", "status": "proved", "theorems": ["Verif.Opt.C326_parallelogram", "Verif.Opt.C326_product"], "note": ""},
  {"property": "C327", "status": "partial", "theorems": ["Verif.Ppx.C327_planes", "Verif.Ppx.C327_nearest_refuted"], "note": "The line is right; the point is nearest to half the first origin instead of the origin."},
  {"property": "C328", "status": "proved", "theorems": ["Verif.Ppx.C328_line", "Verif.Ppx.C328_three", "Verif.Ppx.C328_three_exists"], "note": "np.linalg.solve by its law, which an explicit solver is shown to meet."},
  {"property": "C329", "status": "partial", "theorems": ["Verif.Ppx.C329_closest_partial", "Verif.Ppx.C329_closest_refuted", "Verif.Ppx.C329_middle"], "note": "The result lies on the line to the point itself; right only for points of lines with special directions."},
  {"property": "C33", "status": "proved", "theorems": ["Verif.Nurbs.C33_find_span", "Verif.Nurbs.C33_find_span_linear", "Verif.Nurbs.C33_find_span_periodic"], "note": "Binary search, linear search and the periodic wrap; exact result for every multiplicity pattern, termination bound n+1-p."},
  {"property": "C330", "status": "proved", "theorems": ["Verif.Ppx.C330_improve"], "note": "np.linalg.lstsq by its law, which an explicit solver is shown to meet."},
  {"property": "C331", "status": "partial", "theorems": ["Verif.Ppx.C331_first_partial", "Verif.Ppx.C331_freeform_refuted", "Verif.Ppx.C331_marching_refuted", "Verif.Ppx.C331_endless_refuted"], "note": "Holds when the first correction is close; otherwise the points of the first correction are returned all the same, with a nested result."},
  {"property": "C332", "status": "partial", "theorems": ["Verif.Ppx.C332_unit_partial", "Verif.Ppx.C332_interval_refuted"], "note": "Only for the unit square."},
  {"property": "C333", "status": "partial", "theorems": ["Verif.Ppx.C333_radius_refuted", "Verif.Ppx.C333_origin_refuted"], "note": "The radius is the squared sine of the angle between the normals, whatever the curvature."},
  {"property": "C334", "status": "proved", "theorems": ["Verif.Spl.C334_linear"], "note": ""},
  {"property": "C335", "status": "proved", "theorems": ["Verif.Spl.C335_local"], "note": ""},
  {"property": "C336", "status": "proved", "theorems": ["Verif.Spl.C336_affine", "Verif.Spl.C336_weights"], "note": ""},
  {"property": "C337", "status": "proved", "theorems": ["Verif.Spl.C337_continuous", "Verif.Spl.C337_jump"], "note": "The curve jumps at inner knots of higher multiplicity."},
  {"property": "C338", "status": "partial", "theorems": ["Verif.Spl.C338_rows", "Verif.Spl.C338_deriv", "Verif.Spl.C338_first_partial"], "note": "Proved for the rows of derivatives2 (the Cartesian control points); for the curve itself for equal weights only, since weights are ignored (C125)."},
  {"property": "C339", "status": "proved", "theorems": ["Verif.Spl.C339_knot", "Verif.Spl.C339_start", "Verif.Spl.C339_end"], "note": ""},
  {"property": "C34", "status": "proved", "theorems": ["Verif.Nurbs.C34_basis_funs"], "note": "Equality with the Cox-de Boor recursion (right end closed), vanishing outside the window, frame, nonnegativity, partition of unity, divisors positive."},
  {"property": "C340", "status": "proved", "theorems": ["Verif.Dc.C340_shapes", "Verif.Dc.C340_rectangle"], "note": ""},
  {"property": "C341", "status": "partial", "theorems": ["Verif.Dc.C341_tuple_partial", "Verif.Dc.C341_array_refuted", "Verif.Dc.C341_many_refuted"], "note": "Right for tuples. For arrays the differences of x and y are added before squaring and all points are summed, so points arbitrarily far away are inside and many points give one number."},
  {"property": "C342", "status": "partial", "theorems": ["Verif.Dc.C342_values", "Verif.Dc.C342_numbers", "Verif.Dc.C342_mixed", "Verif.Dc.C342_argument_refuted"], "note": "The values are right; the first array is overwritten with the result."},
  {"property": "C343", "status": "partial", "theorems": ["Verif.Dc.C343_zero", "Verif.Dc.C343_continuous", "Verif.Dc.C343_endless_refuted"], "note": "Right for different signs; for two ends outside the recursion never ends."},
  {"property": "C344", "status": "proved", "theorems": ["Verif.Dc.C344_sides", "Verif.Dc.C344_left"], "note": ""},
  {"property": "C345", "status": "proved", "theorems": ["Verif.Dc.C345_closed"], "note": ""},
  {"property": "C346", "status": "proved", "theorems": ["Verif.Dc.C346_corners", "Verif.Dc.C346_bilinear", "Verif.Dc.C346_tiles", "Verif.Dc.C346_error", "Verif.Dc.C346_merged", "Verif.Dc.C346_one"], "note": ""},
  {"property": "C347", "status": "proved", "theorems": ["Verif.Dc.C347_unit", "Verif.Dc.C347_affine"], "note": ""},
  {"property": "C348", "status": "partial", "theorems": ["Verif.Dc.C348_corner", "Verif.Dc.C348_line", "Verif.Dc.C348_none", "Verif.Dc.C348_cell_refuted"], "note": "The feature may lie outside its cell."},
  {"property": "C349", "status": "partial", "theorems": ["Verif.Dc.C349_horizontal", "Verif.Dc.C349_vertical_partial", "Verif.Dc.C349_vertical_refuted", "Verif.Dc.C349_ring_refuted"], "note": "edgeProcH joins exactly the cells that share a piece of a vertical side. edgeProcV takes the far rows of both trees: as soon as one tree is divided, all cells it joins have a gap between them. Signs on the common side are not looked at."},
  {"property": "C35", "status": "partial", "theorems": ["Verif.Nurbs.C35_convex_hull", "Verif.Nurbs.C35_evaluate_is_rational_spline", "Verif.Nurbs.C35_bbox_contains_curve_partial", "Verif.Nurbs.C35_bbox_contains_curve_refuted"], "note": "Convex hull property proved for positive weights and evaluate proved equal to the textbook rational spline; bbox contains the curve only for unit weights: refuted otherwise because bbox divides Cartesian coordinates by the weight."},
  {"property": "C350", "status": "partial", "theorems": ["Verif.Dc.C350_fold", "Verif.Dc.C350_area", "Verif.Dc.C350_trav", "Verif.Dc.C350_filter_refuted", "Verif.Dc.C350_full", "Verif.Dc.C350_empty"], "note": "The filter of the caller is not passed to the nested calls."},
  {"property": "C351", "status": "proved", "theorems": ["Verif.Geo.C351_no_change_of_speed", "Verif.Geo.C351_constant_speed"], "note": "Stated for exact solutions; solve_ivp itself is not modelled."},
  {"property": "C352", "status": "partial", "theorems": ["Verif.Geo.C352_geodesic_iff", "Verif.Geo.C352_cylinder_partial", "Verif.Geo.C352_refuted"], "note": "The Christoffel symbols mix derivatives: the acceleration is normal exactly if p (E_v - F_u) + q (F_v - G_u) = 0. True on cylinders, false in the plane in polar coordinates for every path that is not radial."},
  {"property": "C353", "status": "proved", "theorems": ["Verif.Geo.C353_metric_derivatives"], "note": ""},
  {"property": "C354", "status": "proved", "theorems": ["Verif.Geo.C354_defined_iff"], "note": ""},
  {"property": "C355", "status": "proved", "theorems": ["Verif.Bsu.C355_find_span", "Verif.Bsu.C355_outside"], "note": ""},
  {"property": "C356", "status": "partial", "theorems": ["Verif.Bsu.C356_degree_one_partial", "Verif.Bsu.C356_refuted", "Verif.Bsu.C356_end_refuted"], "note": "Right for degree 1. From degree 2 on left[p - r] is used in place of left[j - r]: the last number is 0 where the basis function is positive, and the result is not finite at the end of the domain."},
  {"property": "C357", "status": "proved", "theorems": ["Verif.Bsu.C357_bspline_derivatives", "Verif.Bsu.C357_extra_entry"], "note": "The list has one entry more than asked for; that entry is zero (C357_extra_entry)."},
  {"property": "C358", "status": "partial", "theorems": ["Verif.Bsu.C358_binomial", "Verif.Bsu.C358_rational_partial", "Verif.Bsu.C358_refuted"], "note": "calc_rational_curve_derivatives and calcKoverI are right on arrays of floats. calcNURBSDerivatives appends an array of integers and so never returns."},
  {"property": "C359", "status": "partial", "theorems": ["Verif.Bsu.C359_refuted"], "note": "Both raise for all inputs, since floats are added in place to an array of integers."},
  {"property": "C36", "status": "partial", "theorems": ["Verif.Nurbs.C36_insert_knot_columns", "Verif.Nurbs.C36_insert_knot_partial", "Verif.Nurbs.C36_insert_knot_refuted"], "note": "Every stored column keeps its spline under insertion (all degrees, multiplicities, counts); curve unchanged for equal weights; refuted for rational curves because Cartesian coordinates are interpolated."},
  {"property": "C360", "status": "partial", "theorems": ["Verif.Bsu.C360_find_span", "Verif.Bsu.C360_evaluate", "Verif.Bsu.C360_generated", "Verif.Bsu.C360_unclamped_refuted"], "note": "Right on knots clamped at both ends (such as those of generate_knots). On other knots parameters between the first knot and the domain raise."},
  {"property": "C361", "status": "partial", "theorems": ["Verif.Tri.C361_no_comment", "Verif.Tri.C361_comment", "Verif.Tri.C361_last_refuted"], "note": "A comment in a last line without a newline stays."},
  {"property": "C362", "status": "proved", "theorems": ["Verif.Tri.C362_node"], "note": "The reading of floats is a parameter."},
  {"property": "C363", "status": "partial", "theorems": ["Verif.Tri.C363_triangles", "Verif.Tri.C363_alone_refuted"], "note": "True with the node file; without it the numbers of a file that counts from 1 are returned as they stand."},
  {"property": "C364", "status": "partial", "theorems": ["Verif.Tri.C364_poly", "Verif.Tri.C364_regions", "Verif.Tri.C364_comment_refuted"], "note": "True for files without a comment in a last line without newline; with one, loads raises."},
  {"property": "C365", "status": "partial", "theorems": ["Verif.Tri.C365_zero_partial", "Verif.Tri.C365_refuted"], "note": "True for files that count from 0; in the others -1 becomes -2."},
  {"property": "C366", "status": "partial", "theorems": ["Verif.Tri.C366_inside_row_partial", "Verif.Tri.C366_truncated_refuted"], "note": "Node files cut off inside a row are refused, those cut off after a row are read without complaint."},
  {"property": "C367", "status": "partial", "theorems": ["Verif.Tri.C367_edges_partial", "Verif.Tri.C367_no_rays_refuted", "Verif.Tri.C367_comment_refuted"], "note": "True for files without comments that have an edge and a ray; files without rays raise, and a comment swallows the edge before and after it."},
  {"property": "C368", "status": "partial", "theorems": ["Verif.Tri.C368_consistent_partial", "Verif.Tri.C368_refuted"], "note": "True if the arrays agree; arrays that disagree are accepted and the last one counts."},
  {"property": "C369", "status": "partial", "theorems": ["Verif.Tri.C369_rename", "Verif.Tri.C369_neighbors_refuted"], "note": "The renaming is a round trip; a dictionary with neighbours is refused."},
  {"property": "C37", "status": "partial", "theorems": ["Verif.NCache.C37_cache_partial", "Verif.NCache.C37_pure", "Verif.NCache.C37_edit", "Verif.NCache.C37_degree_refuted", "Verif.NCache.C37_view_refuted", "Verif.NCache.C37_result_refuted", "Verif.NCache.C37_copy_refuted", "Verif.NCache.C37_shared_refuted"], "note": "Proved for all histories without copy(), degree changes after evaluation, shared arrays and writes into cached results or arrays of evaluated curves; each of these exceptions refuted."},
  {"property": "C370", "status": "partial", "theorems": ["Verif.Col.C370_roundtrip", "Verif.Col.C370_decimal", "Verif.Col.C370_injective", "Verif.Col.C370_large_refuted"], "note": "True for components 0-255. Larger ones are accepted but no text is read as them."},
  {"property": "C371", "status": "partial", "theorems": ["Verif.Col.C371_unit_roundtrip", "Verif.Col.C371_float", "Verif.Col.C371_bytes_refuted", "Verif.Col.C371_type_refuted"], "note": "rgb_0to1 and floats are right. The integers of rgb_0to255 are not instances of int and are multiplied by 255; 1, 0, 0 as integers is almost black."},
  {"property": "C372", "status": "partial", "theorems": ["Verif.Col.C372_hash", "Verif.Col.C372_tuple_refuted"], "note": "True among colours; a colour of four integers equals the tuple of them but has the hash of three."},
  {"property": "C373", "status": "partial", "theorems": ["Verif.Col.C373_components", "Verif.Col.C373_opacity_refuted"], "note": "Components and opacity are kept; colours that differ in opacity compare equal."},
  {"property": "C374", "status": "proved", "theorems": ["Verif.Spl.C374_edges", "Verif.Spl.C374_corners"], "note": ""},
  {"property": "C375", "status": "proved", "theorems": ["Verif.Spl.C375_local"], "note": ""},
  {"property": "C376", "status": "proved", "theorems": ["Verif.Spl.C376_affine"], "note": ""},
  {"property": "C377", "status": "proved", "theorems": ["Verif.Spl.C377_linear"], "note": ""},
  {"property": "C378", "status": "proved", "theorems": ["Verif.Spl.C378_continuous"], "note": ""},
  {"property": "C379", "status": "proved", "theorems": ["Verif.Spl.C379_u", "Verif.Spl.C379_v"], "note": "Inside the domain; at its right ends the entries are NaN (C127)."},
  {"property": "C38", "status": "partial", "theorems": ["Verif.Serial.C38_roundtrip_partial", "Verif.Serial.C38_injective_partial", "Verif.Serial.C38_rejects", "Verif.Serial.C38_accepted", "Verif.Serial.C38_length", "Verif.Serial.C38_deterministic_refuted", "Verif.Serial.C38_truncated_refuted", "Verif.Serial.C38_columns_refuted", "Verif.Serial.C38_strided_refuted"], "note": "Round trip and injectivity proved for contiguous arrays of four columns, rejection of other magic and version proved; result contains uninitialised bytes, truncated data are read outside, strided and three-column arrays are not read back (refuted)."},
  {"property": "C380", "status": "partial", "theorems": ["Verif.Rfn.C380_refine_partial", "Verif.Rfn.C380_evaluate_partial", "Verif.Rfn.C380_short_refuted"], "note": "Proved for knots which both tolerances tell apart, end knot of full multiplicity; refuted on every line over an interval shorter than the absolute tolerance 1e-8, where the new point is the end of the line."},
  {"property": "C381", "status": "partial", "theorems": ["Verif.Rfn.C381_list_partial", "Verif.Rfn.C381_default_partial", "Verif.Rfn.C381_density_partial", "Verif.Rfn.C381_repeated_refuted", "Verif.Rfn.C381_density3_refuted"], "note": "Proved for density 1 and, without repeated knots, density 2; refuted: with a repeated knot density > 1 reads past the end of the list, and density 3 gives knots out of order on every line."},
  {"property": "C382", "status": "partial", "theorems": ["Verif.Rfn.C382_inverse_partial", "Verif.Rfn.C382_inverse_refuted", "Verif.Rfn.C382_tolerance_refuted"], "note": "Proved if the knot had multiplicity p - 1; refuted otherwise: the row in the middle is not restored; the tolerance has no influence on the rows from the middle on."},
  {"property": "C383", "status": "partial", "theorems": ["Verif.Rfn.C383_partial", "Verif.Rfn.C383_refuted"], "note": "Proved if the first new knot lies before the last span, or there is one span; refuted if all lie inside the last of several spans: the last inner knot is replaced by 0."},
  {"property": "C384", "status": "partial", "theorems": ["Verif.Rfn.C384_partial", "Verif.Rfn.C384_refuted"], "note": "Proved for one knot on a Bezier curve; refuted on every curve with an inner knot."},
  {"property": "C385", "status": "partial", "theorems": ["Verif.Rfn.C385_split_partial", "Verif.Rfn.C385_split_refuted"], "note": "The insertion raises a TypeError for every parameter that is not yet a knot of full multiplicity; at such knots the control points stay. The cutting afterwards is not modelled."},
  {"property": "C386", "status": "proved", "theorems": ["Verif.Spl.C386_after", "Verif.Spl.C386_before"], "note": "Non-periodic curves; knots clamped at the start (otherwise C54: the span search does not end)."},
  {"property": "C387", "status": "proved", "theorems": ["Verif.Crd.C387_there_and_back", "Verif.Crd.C387_back_and_there"], "note": "Real numbers; atan2(y, x) is the argument of x + iy."},
  {"property": "C388", "status": "partial", "theorems": ["Verif.Crd.C388_partial", "Verif.Crd.C388_refuted"], "note": "cylindrical_to_xyz is right. courtesan_to_cylindrical returns the spherical radius and the polar angle: going there and back gives (z, sqrt(x^2+y^2), z), the point itself only for (0, y, 0) with y >= 0."},
  {"property": "C389", "status": "partial", "theorems": ["Verif.Crd.C389_partial", "Verif.Crd.C389_order_refuted", "Verif.Crd.C389_planes_refuted", "Verif.Crd.C389_deep_refuted", "Verif.Crd.C389_short_refuted"], "note": "Stack with plane, plane with stack, equally long stacks, two planes: every row without NaN is a line on both planes. With plane first and stack second the direction is reversed; planes_planes_intersect always raises; a second argument with more than three dimensions raises or is replaced by the first; a shorter second stack is read out of bounds."},
  {"property": "C39", "status": "partial", "theorems": ["Verif.Nurbs.C39_reverse_partial", "Verif.Nurbs.C39_reverse_involutive_partial", "Verif.Nurbs.C39_reverse_refuted"], "note": "Proved for every clamped continuous (also rational) curve if negative indices wrap around; refuted for the build's directives (wraparound=False), where the knots come from memory before the buffer."},
  {"property": "C390", "status": "partial", "theorems": ["Verif.Crd.C390_partial", "Verif.Crd.C390_refuted"], "note": "Proved for normals not along the z axis; for normals along the z axis (the horizontal plane) the result is NaN."},
  {"property": "C391", "status": "partial", "theorems": ["Verif.Crd.C391_local_partial", "Verif.Crd.C391_local_refuted", "Verif.Crd.C391_orient_partial", "Verif.Crd.C391_orient_refuted"], "note": "local_to_world and world_to_local are inverse for plane objects; an array, the default argument included, raises. orient_matrix is right (rows times matrix) exactly if the squares of the matrices of axes agree and the first origin has the same product with both; in particular for equal axes."},
  {"property": "C392", "status": "partial", "theorems": ["Verif.Crd.C392_partial", "Verif.Crd.C392_refuted"], "note": "Right for arrays of four rows; an origin and a normal (two rows) raises."},
  {"property": "C393", "status": "partial", "theorems": ["Verif.Crd.C393_support", "Verif.Crd.C393_jacobian_refuted"], "note": "multi_support_vector is right for all vertices and directions; invert_jacobian of a stack always raises."},
  {"property": "C394", "status": "proved", "theorems": ["Verif.Crd.C394_rotation", "Verif.Crd.C394_turn"], "note": "Real angles."},
  {"property": "C395", "status": "proved", "theorems": ["Verif.Gjk.Py.C395_answers", "Verif.Gjk.Py.C395_empty", "Verif.Gjk.Py.C395_lattice"], "note": "Vectors of three components over an ordered ring; lattice independence for spacing at least 1 and tolerances in [0, 1)."},
  {"property": "C396", "status": "partial", "theorems": ["Verif.Gjk.Py.C396_apart_partial", "Verif.Gjk.Py.C396_meet_partial", "Verif.Gjk.Py.C396_cycle_refuted", "Verif.Gjk.Py.C396_collision_refuted"], "note": "Stopping because the new point does not pass the origin is always right, so hulls that meet are reported or the rounds run out. Refuted both ways: five points around the origin give False for every number of rounds (the search cycles), five points strictly on one side of a plane through the origin give True; the C++ version is right on both."},
  {"property": "C397", "status": "proved", "theorems": ["Verif.Clp.C397_ends", "Verif.Clp.op_empty"], "note": "Exact ordered field for floats. The heap of linked vertices is modelled with next, previous and neighbour references; loops have fuel, and some amount of fuel is shown to be enough."},
  {"property": "C398", "status": "partial", "theorems": ["Verif.Clp.C398_outline", "Verif.Clp.C398_crossings", "Verif.Clp.C398_closed_refuted"], "note": "Consecutive vertices lie on an edge, vertices are vertices or crossings, all crossings occur. Refuted: the last vertex and the first need not lie on a common edge (a vertex of one triangle on an edge of the other)."},
  {"property": "C399", "status": "proved", "theorems": ["Verif.Clp.C399_build", "Verif.Clp.C399_order"], "note": "Proper crossings only (the intersection test of the code excludes end points)."},
  {"property": "C40", "status": "partial", "theorems": ["Verif.Bez.C40_evaluate", "Verif.Bez.C40_evaluate'", "Verif.Bez.C40_roundtrip", "Verif.Bez.C40_roundtrip'", "Verif.Bez.C40_from_bezier_refuted", "Verif.Bez.C40_range_refuted"], "note": "Conversions inverse to each other and value preserving for up to 31 rows and columns (the whole range of the table); beyond it memory outside the table is used (refuted), and Monomial2D.from_bezier takes control points as coefficients (refuted)."},
  {"property": "C400", "status": "partial", "theorems": ["Verif.Clp.C400_apart_partial", "Verif.Clp.C400_no_crossing_refuted", "Verif.Clp.C400_apart_refuted", "Verif.Clp.C400_inside_refuted"], "note": "Refuted: without crossings every operation returns the first polygon, so intersections of separate polygons are not empty, unions lose the second polygon, and a polygon inside a rectangle is lost. Right: the difference of separate polygons."},
  {"property": "C401", "status": "partial", "theorems": ["Verif.Clp.C401_flat_partial", "Verif.Clp.C401_height_refuted"], "note": "Right at height zero; refuted at every other height as soon as two edges cross."},
  {"property": "C402", "status": "partial", "theorems": ["Verif.Clp.C402_parity_partial", "Verif.Clp.C402_vertex_refuted", "Verif.Clp.C402_shift_refuted"], "note": "The test is the parity of the number of edges of the given polygon properly crossed by the segment to (1000000, y). Refuted: with a vertex of the other polygon on the ray the intersection leaves the other polygon; across x = 1000000 the result is not the translate."},
  {"property": "C403", "status": "partial", "theorems": ["Verif.Clp.C403_again_refuted"], "note": "Refuted for two overlapping squares. The operators | - + copy the polygons first; for new objects the answer is that of C397-C402."},
  {"property": "C404", "status": "partial", "theorems": ["Verif.Pq.C404_queue", "Verif.Pq.C404_order_refuted"], "note": "heappush and heappop are modelled after the Python source of heapq. All parts hold but for the order of nodes with equal keys: of four nodes with the same key the third one comes before the second."},
  {"property": "C405", "status": "partial", "theorems": ["Verif.Pq.C405_points_partial", "Verif.Pq.C405_points_refuted"], "note": "Right when coordinates are equal or further apart than the tolerance. Refuted for every tolerance and by any number of tolerances, because the comparison is not transitive."},
  {"property": "C406", "status": "proved", "theorems": ["Verif.Fdm.C406_gradient", "Verif.Fdm.C406_hessian"], "note": "Exact field for floats; arrays of integers raise and are not modelled."},
  {"property": "C407", "status": "partial", "theorems": ["Verif.Fdm.C407_rows_partial", "Verif.Fdm.C407_unfinished_refuted", "Verif.Fdm.C407_singular_refuted", "Verif.Fdm.C407_negative_refuted"], "note": "Holds row by row when no singular Hessian is met, but a row that does not end in the number of rounds is answered with zeros. Refuted: one singular Hessian makes all rows zero, unfinished rows are zero, and a step to a negative value of the function ends the iteration."},
  {"property": "C408", "status": "partial", "theorems": ["Verif.Poly.C408_ends", "Verif.Poly.C408_area", "Verif.Poly.C408_head_refuted", "Verif.Poly.C408_second_refuted", "Verif.Poly.C408_spike_refuted"], "note": "Ends, keeps order, first vertex and area (test without tolerance). Refuted: the first vertex and the vertex after a removed one are not looked at; the tip of a spike is removed."},
  {"property": "C409", "status": "partial", "theorems": ["Verif.Poly.C409_first_partial", "Verif.Poly.C409_others_refuted", "Verif.Poly.C409_one_refuted"], "note": "The union of two polygons is a parameter. The method returns after the first polygon was tried, so that at most one union is made."},
  {"property": "C41", "status": "partial", "theorems": ["Verif.Bez.C41_elevate", "Verif.Bez.C41_rejects", "Verif.Bez.C41_range_refuted", "Verif.Bez.C41_rational_refuted"], "note": "Proved for every degree and number of elevations up to degree 30, points and parameter; beyond 30 and for rational curves with different weights refuted."},
  {"property": "C410", "status": "partial", "theorems": ["Verif.Nst.C410_interval_partial", "Verif.Nst.C410_greville_partial", "Verif.Nst.C410_insert_refuted", "Verif.Nst.C410_degree_refuted", "Verif.Nst.C410_set_refuted", "Verif.Nst.C410_shared_refuted", "Verif.Nst.C410_make_periodic", "Verif.Nst.C410_make_periodic_refuted"], "note": "Holds for histories in which nothing writes into the knots of another curve and set keeps the ends (interval), and no degree is changed and no knot inserted (abscissae). Refuted for every insertion, every change of degree, every set with other ends and every shared array of knots that does not run from 0 to 1."},
  {"property": "C411", "status": "partial", "theorems": ["Verif.Nst.C411_same", "Verif.Nst.C411_equal_partial", "Verif.Nst.C411_equivalence", "Verif.Nst.C411_collision_refuted", "Verif.Nst.C411_integer_refuted", "Verif.Nst.C411_periodic_refuted", "Verif.Nst.C411_stale_refuted"], "note": "An equivalence; same data in step with the knots are equal; equal curves have the same data if the hash does not collide. Refuted: collisions exist for every bounded hash, a curve is equal to its hash, the flag periodic is ignored, a stale interval makes equal data unequal."},
  {"property": "C412", "status": "partial", "theorems": ["Verif.Nst.C412_interval_partial", "Verif.Nst.C412_degree_refuted", "Verif.Nst.C412_default_refuted", "Verif.Nst.C412_normalize"], "note": "Holds for all histories without a change of degree and without writes into knots of other surfaces. Refuted for every change of the degree of a surface unless the knots had the ends of the default knots."},
  {"property": "C413", "status": "partial", "theorems": ["Verif.Nst.C413_hash_refuted"], "note": "Refuted for all surfaces: geometry_hash reads the attribute _control_points, which surfaces do not have."},
  {"property": "C414", "status": "partial", "theorems": ["Verif.Nst.C414_views_partial", "Verif.Nst.C414_dangling_refuted"], "note": "Safe while no buffer with a view is given up; copies are always safe. Refuted for every surface: a view dangles after an insertion and after the surface is collected."},
  {"property": "C415", "status": "partial", "theorems": ["Verif.Cbb.C415_returns", "Verif.Cbb.C415_inside", "Verif.Cbb.C415_monotone", "Verif.Cbb.C415_unimodal_partial", "Verif.Cbb.C415_refuted"], "note": "Always returns, contains both ends, every face is touched. Contains the curve if every coordinate is monotone, and up to L*tol/2 if every coordinate has one turning point and speed at most L. Refuted: for every height and tolerance a curve of bounded speed leaves its box by that height."},
  {"property": "C416", "status": "partial", "theorems": ["Verif.Cbb.C416_returns", "Verif.Cbb.C416_inside", "Verif.Cbb.C416_partial", "Verif.Cbb.C416_ends_refuted", "Verif.Cbb.C416_default_refuted"], "note": "Returns given bounds; every face is touched; the face at a single turning point is right up to L*tol/2. Refuted: both ends of every curve with a strictly monotone coordinate are outside the box; without bounds it raises."},
  {"property": "C417", "status": "partial", "theorems": ["Verif.Cbb.C417_partial", "Verif.Cbb.C417_monotone", "Verif.Cbb.C417_refuted", "Verif.Cbb.C417_few"], "note": "Contains the ends, faces touched, excess at most L*step/2, exact for monotone coordinates. Refuted: for every number of samples a polynomial curve leaves its box by any height; with one sample the box is a point, with none there is none."},
  {"property": "C418", "status": "partial", "theorems": ["Verif.Mnm.C418_search_partial", "Verif.Mnm.C418_keeps_best", "Verif.Mnm.C418_edge_refuted"], "note": "Ends for every function and positive tolerance with a point of the range; each round keeps the best of its points. Refuted: for every tolerance the search for the middle of an upper edge of the cube ends at a value of at least 1/8 above the minimum."},
  {"property": "C419", "status": "partial", "theorems": ["Verif.Mnm.C419_raises_refuted", "Verif.Mnm.C419_minima_partial", "Verif.Mnm.C419_range_refuted"], "note": "Raises a TypeError for every function, range and grid, as it hands a list to a routine that takes a buffer. With a routine that takes lists: distinct, near ends of runs at minima, with values, none lost; but not confined to the range."},
  {"property": "C42", "status": "proved", "theorems": ["Verif.Vec.C42_solve2x2", "Verif.Vec.C42_invert_jacobian"], "note": ""},
  {"property": "C420", "status": "partial", "theorems": ["Verif.Epl.C420_exact_partial", "Verif.Epl.C420_steps", "Verif.Epl.C420_limit_refuted", "Verif.Epl.C420_default_refuted"], "note": "On curves of constant speed every answer is exact, and no step is ever short enough for the criterion of the tolerance. Refuted: lengths reached beyond the limit give parameters beyond it; without a limit (the default) it raises. Varying speeds are not covered."},
  {"property": "C421", "status": "partial", "theorems": ["Verif.Sic.C421_tangent", "Verif.Sic.C421_partial", "Verif.Sic.C421_angle_refuted", "Verif.Sic.C421_scale_refuted"], "note": "The tangent is right. The vector is right for orthonormal derivatives and a right angle between the surfaces. Refuted: at every other angle it is wrong unless the curve lies in both tangent planes to second order; and it scales with the fourth power of the speed of a parameter."},
  {"property": "C422", "status": "partial", "theorems": ["Verif.Sic.C422_partial", "Verif.Sic.C422_short_refuted", "Verif.Sic.C422_skips_refuted"], "note": "Right when the vertices are at whole steps from the start of the interval. Refuted: on intervals of length at most one the polygon is a single point; vertices at other parameters are never seen."},
  {"property": "C423", "status": "partial", "theorems": ["Verif.Swl.C423_lines_partial", "Verif.Swl.C423_touch_refuted", "Verif.Swl.C423_overlap_refuted", "Verif.Swl.C423_outside_refuted", "Verif.Swl.C423_order", "Verif.Swl.C423_scan", "Verif.Swl.C423_found"], "note": "Proved by an invariant of the whole sweep: a reported point is on the line of its input and on the line of another input with another direction, the sentinels never add a point; for inputs with length and ends equal or apart by more than the tolerance. Missing: completeness for inputs in general position. Refuted: a segment that starts on another is not found; with overlapping inputs a proper crossing is missed for one of the two, and a point outside of a segment is reported."},
  {"property": "C424", "status": "partial", "theorems": ["Verif.Sph.C424_convex", "Verif.Sph.C424_hulls", "Verif.Sph.C424_partial", "Verif.Sph.C424_repeated_refuted", "Verif.Sph.C424_point_refuted"], "note": "Proved: for strictly convex polygons of three vertices or more, in particular the results of convex_hull2d, the answer is True exactly if any line separates them (separating axis theorem); for hulls without equal vertices next to each other it is True exactly if a side direction of one of the hulls, or its normal, gives a separating line. Refuted: with repeated vertices or one-point hulls the answer is always True (a point in the middle of a square is separable from it)."},
  {"property": "C425", "status": "partial", "theorems": ["Verif.Sph.C425_partial", "Verif.Sph.C425_refuted", "Verif.Sph.C425_pole_refuted"], "note": "Refuted: a bilinear piece and a curve piece that start at the common point and meet a second time in the middle of both are dropped, for every norm, angle and every tolerance below one quarter; the two opposite pole directions have the same image. Proved: a line through the origin of the plane stands for a plane through the pole."},
  {"property": "C426", "status": "partial", "theorems": ["Verif.Sml.C426_partial", "Verif.Sml.C426_sign_refuted", "Verif.Sml.C426_skew_refuted", "Verif.Sml.C426_short_refuted"], "note": "Proved: the points with the parameters -s1 and -s2 are the nearest points of the two lines. Refuted: whenever lines meet the returned parameters are the negatives of the true ones; skew lines are answered with True; short lines that meet at a right angle are reported as parallel."},
  {"property": "C427", "status": "partial", "theorems": ["Verif.Sml.C427_closed", "Verif.Sml.C427_translation", "Verif.Sml.C427_open_refuted"], "note": "Proved for close=True (the default): the answer is the sign of the enclosed area, measured from any point, and does not change under translations. Refuted for close=False: if the first and the last abscissa differ, one translation of the points gives CW and another CCW."},
  {"property": "C428", "status": "proved", "theorems": ["Verif.Sml.C428_symmetric"], "note": "For all symmetric matrices over an ordered field."},
  {"property": "C429", "status": "partial", "theorems": ["Verif.Sml.C429_partial", "Verif.Sml.C429_short_refuted"], "note": "Proved if the length left for the middle is more than half of the constant length. Refuted below: no pieces in the middle and a wrong sum, or an exception."},
  {"property": "C43", "status": "partial", "theorems": ["Verif.Vec.C43_solver", "Verif.Vec.C43_three_planes_partial", "Verif.Vec.C43_three_planes_refuted", "Verif.Vec.C43_two_planes_partial", "Verif.Vec.C43_two_planes_refuted"], "note": "The elimination is proved correct whenever it meets no zero pivot; the peak-search pivoting can choose a zero pivot for independent normals (refuted)."},
  {"property": "C430", "status": "proved", "theorems": ["Verif.Nsp.C430_evaluate"], "note": "For all valid curves (increasing knots, as many as needed) over an ordered field."},
  {"property": "C431", "status": "partial", "theorems": ["Verif.Nsp.C431_closed_iff", "Verif.Nsp.C431_periodic_refuted", "Verif.Nsp.C431_open_refuted", "Verif.Nsp.C431_apart_refuted"], "note": "Refuted in both cases: make_open does nothing to any curve made by make_periodic, and drops the last degree control points of every open curve. Proved: what the test of make_open decides."},
  {"property": "C432", "status": "partial", "theorems": ["Verif.Nsp.C432_partial", "Verif.Nsp.C432_refuted"], "note": "Proved: same interval and same values on it. Refuted: a copy is never periodic, and beyond the interval the values differ."},
  {"property": "C433", "status": "partial", "theorems": ["Verif.Nsp.C433_partial", "Verif.Nsp.C433_weights_refuted", "Verif.Nsp.C433_number_refuted"], "note": "Proved with four columns and the same number of points. Refuted: setting the control points a spline has drops its weights; any number of points is taken and the spline is not valid afterwards."},
  {"property": "C434", "status": "partial", "theorems": ["Verif.Nsp.C434_partial", "Verif.Nsp.C434_refuted"], "note": "Proved: the vector returned has length one and is at a right angle to the derivative. Refuted: three numbers are written behind the array of nine, whatever the curve."},
  {"property": "C435", "status": "partial", "theorems": ["Verif.Edg.C435_partial", "Verif.Edg.C435_single_refuted", "Verif.Edg.C435_inside_refuted", "Verif.Edg.C435_nearest_refuted", "Verif.Edg.C435_square_refuted", "Verif.Edg.C435_free_partial", "Verif.Edg.C435_outside_partial"], "note": "Proved: for a point in the box of a piece the best solver result among the pieces of least signed box distance is returned. Refuted: True for every point if the curve is a single piece; True for every point in a box; other pieces are not looked at; the number returned is the square of the distance."},
  {"property": "C436", "status": "partial", "theorems": ["Verif.Edg.C436_partial", "Verif.Edg.C436_refuted", "Verif.Edg.C436_check_refuted", "Verif.Edg.C436_unhashable_iff"], "note": "Refuted: the call always raises, since the cache hashes arrays. Without the cache: proved that the parameters are those of the two searches and when the check passes; refuted that the check sees vertices away from the curve, and that the distance of the start is reported (it is the parameter)."},
  {"property": "C437", "status": "partial", "theorems": ["Verif.Edg.C437_partial", "Verif.Edg.C437_nurbs_refuted", "Verif.Edg.C437_bounds_refuted", "Verif.Edg.C437_smallest_partial"], "note": "Refuted: closest_point_on_nurbs_surface returns None always; closest_point_on_surface does not look at the bounds if the point is in a box of the tree. Proved: otherwise it is the search on the bounds."},
  {"property": "C438", "status": "partial", "theorems": ["Verif.Fea.C438_sound", "Verif.Fea.C438_skip", "Verif.Fea.C438_complete_partial", "Verif.Fea.C438_steep_refuted", "Verif.Fea.C438_repeated_refuted", "Verif.Fea.C438_tol_refuted", "Verif.Fea.C438_empty_refuted", "Verif.Fea.C438_default_refuted", "Verif.Fea.C438_tree"], "note": "Proved: soundness for every list of cells; completeness for functions that change no faster than the distance with cells no larger than the first one. Refuted: a zero of steeper functions is missed; repetitions are seen only if consecutive; rtol is replaced by atol and raises without it; no cells raise. Refuted as well: without a tree curve_iix raises for all curves (a function has no bounds)."},
  {"property": "C439", "status": "partial", "theorems": ["Verif.Fea.C439_partial", "Verif.Fea.C439_chain", "Verif.Fea.C439_refuted"], "note": "Proved: the pairs are right if no distance is the threshold itself; every pair is joined to a guess by a chain of near pairs. Refuted: a first distance equal to the threshold pairs every parameter with the sample of the point before. The NameError for uv_range=None is not modelled."},
  {"property": "C44", "status": "proved", "theorems": ["Verif.Vec.C44_local_of_world", "Verif.Vec.C44_world_of_local", "Verif.Vec.C44_isometry", "Verif.Vec.C44_scaled_refuted"], "note": "for orthonormal frames; refuted for scaled axes"},
  {"property": "C440", "status": "partial", "theorems": ["Verif.Frm.C440_refuted", "Verif.Frm.C440_rows_refuted", "Verif.Frm.C440_partial", "Verif.Frm.C440_swap", "Verif.Frm.C440_plane_refuted"], "note": "Refuted: the calls raise for all curves, since the compiled functions take arrays of two dimensions; for arrays of rows the three components of each normal are equal. Proved: for rows the normals have length one, the binormals are at right angles to both, and swap_z_to_first_der keeps a right-handed frame."},
  {"property": "C441", "status": "partial", "theorems": ["Verif.Frm.C441_partial", "Verif.Frm.C441_refuted"], "note": "Proved for tolerances between zero and the radius of curvature. Refuted: no step at points without curvature and for tolerances above the diameter, zero for the diameter."},
  {"property": "C442", "status": "partial", "theorems": ["Verif.Frm.C442_partial", "Verif.Frm.C442_refuted"], "note": "Proved: distance, vector and parameter belong together; the distance is within L h of the least one if the inversion does not move away. Refuted: for every straight line the nearest sample is returned, farther away than the foot of the point."},
  {"property": "C443", "status": "partial", "theorems": ["Verif.Ssr.C443_refuted", "Verif.Ssr.C443_parallel_refuted", "Verif.Ssr.C443_partial"], "note": "Refuted: both calls raise for all curves (the compiled Newton method does not take lists); even with one that does, parallel lines raise ValueError. Proved, with a Newton method that takes lists: the result is the squared distance at its parameters and not above that near any minimum found from the grid."},
  {"property": "C444", "status": "partial", "theorems": ["Verif.Ssr.C444_loop_refuted", "Verif.Ssr.C444_partial"], "note": "Proved: one result per curve, none without intersection, all points used for curves that are not loops. Refuted: for loops (and curves without terminators) the curve in space is closed while the curves on the surfaces end at the last point but one."},
  {"property": "C445", "status": "partial", "theorems": ["Verif.Ssr.C445_empty_refuted", "Verif.Ssr.C445_outside_refuted", "Verif.Ssr.C445_partial"], "note": "Proved: the starts are the solutions of the pairs in their order, None if the boxes do not meet. Refuted: the call raises if there is no solution, and solutions outside of the intervals are kept."},
  {"property": "C446", "status": "partial", "theorems": ["Verif.Ras.C446_missed_refuted", "Verif.Ras.C446_grad_refuted", "Verif.Ras.C446_special_refuted", "Verif.Ras.C446_partial", "Verif.Ras.C446_complete_partial"], "note": "Proved: which points of the grid are used, and that no point of the curve is missed if gamma * d_max times the least length of the gradient is above the change of f over half a step. Refuted: with the default gamma a line midway between two rows of a square grid is not found for all grids, the default gradient raises for functions of two arguments, general_implicit=False raises at the first point found."},
  {"property": "C447", "status": "partial", "theorems": ["Verif.Ras.C447_refuted", "Verif.Ras.C447_partial"], "note": "Refuted: the right side of the differential equation gives four arguments to a function of five, so the call raises. Proved for any other right side: the start; the end is the parameter 5, not the end of the interval."},
  {"property": "C448", "status": "proved", "theorems": ["Verif.Bvh.C448_corners", "Verif.Bvh.C448_edges", "Verif.Bvh.C448_faces"], "note": "For boxes with min <= max."},
  {"property": "C449", "status": "partial", "theorems": ["Verif.Bvh.C449_refuted", "Verif.Bvh.C449_evaluate_refuted", "Verif.Bvh.C449_partial", "Verif.Bvh.C449_disjoint"], "note": "Proved: intersect_disjoint for boxes with positive sides; the size by the number of small sides. Refuted: a point is larger than the cubes around it with sides below one, expand does not change the size, evaluate is right only for boxes that begin at zero or at one half."},
  {"property": "C45", "status": "proved", "theorems": ["Verif.Vec.C45_ray_plane", "Verif.Vec.C45_ray_param", "Verif.Vec.C45_small_axes_refuted", "Verif.Vec.C45_triangle_sound", "Verif.Vec.C45_triangle_complete", "Verif.Vec.C45_small_triangle_refuted", "Verif.Vec.C45_first_hit"], "note": "soundness, and completeness away from the tolerance band; the band is absolute, so small triangles and axes fall in it"},
  {"property": "C450", "status": "partial", "theorems": ["Verif.Fdm.Pde.C450_gradient_partial", "Verif.Fdm.Pde.C450_axes_partial", "Verif.Fdm.Pde.C450_mixed_refuted", "Verif.Fdm.Pde.C450_dim_refuted", "Verif.Fdm.Pde.C450_bounds_refuted", "Verif.Fdm.Pde.C450_linear_partial", "Verif.Fdm.Pde.C450_inside_partial"], "note": "Proved for functions quadratic along the axes: the call gives the gradient, calls with axes the partial derivatives there and zeros elsewhere. Refuted: dxy gives first derivatives instead of the mixed one; after dim is set to more the new entries are zero, to less the call raises; with bounds it raises for more than one variable."},
  {"property": "C451", "status": "partial", "theorems": ["Verif.Sinv.C451_plane_partial", "Verif.Sinv.C451_range_partial", "Verif.Sinv.C451_interval_refuted", "Verif.Sinv.C451_surface_refuted"], "note": "Proved: on planes, when a box of the tree holds the point, the result is the foot of the perpendicular and the exact parameters of points of the plane; without a box the result lies in the interval. Refuted: with a box the result can lie outside of the interval (parallelogram with the default tree); points of the surface outside of every box do not give their parameters."},
  {"property": "C452", "status": "partial", "theorems": ["Verif.Sinv.C452_zero_partial", "Verif.Sinv.C452_sign_refuted", "Verif.Sinv.C452_gradient_partial", "Verif.Sinv.C452_gradient_refuted"], "note": "Proved: implicit is zero exactly when the point at the parameters found is the point; gradient has length one and is orthogonal to both derivatives, on the side of their cross product. Refuted: implicit is never negative; where it is zero gradient is not its gradient."},
  {"property": "C453", "status": "partial", "theorems": ["Verif.Sinv.C453_frame_partial", "Verif.Sinv.C453_normal_refuted"], "note": "Proved: plane_at gives an orthonormal right-handed frame for tangents in the tangent plane. Refuted: normal always raises."},
  {"property": "C454", "status": "partial", "theorems": ["Verif.Dqr.C454_boxes", "Verif.Dqr.C454_tests", "Verif.Dqr.C454_pairs_refuted", "Verif.Dqr.C454_rows_refuted", "Verif.Dqr.C454_missed_refuted", "Verif.Dqr.C454_box", "Verif.Dqr.C454_encloses_partial", "Verif.Dqr.C454_apart_partial", "Verif.Dqr.C454_encloses_refuted"], "note": "Proved: the overlap of boxes is found exactly when there is a common point and the two tests of boxes agree; the box of a cell is the least one with its middle and corners, and for bilinear patches it holds the whole cell, so boxes apart mean no common point. Refuted: for every cell there is a cubic surface leaving its box; cell i of the first surface is never tested against cell j < i of the second, and from the second level on a cell is followed against at most one; two pieces of planes crossing along a segment give no candidate."},
  {"property": "C455", "status": "partial", "theorems": ["Verif.Dqr.C455_cover_partial", "Verif.Dqr.C455_cells_refuted"], "note": "Proved: with the middles of its own range the cells make up the range. Refuted: two cells of the second surface use the middles of the range of the first; the cells are the right ones only if the middles agree."},
  {"property": "C456", "status": "partial", "theorems": ["Verif.Dqr.C456_ends", "Verif.Dqr.C456_range_partial", "Verif.Dqr.C456_second_partial", "Verif.Dqr.C456_second_refuted", "Verif.Dqr.C456_centre_refuted"], "note": "Proved: the search ends for positive tolerances; the parameters of the first surface lie in its range, those of the second too when the ranges are equal. Refuted: with ranges (0,1) and (2,3) all reported parameters of the second surface are outside; for a horizontal first surface every reported pair is the centre of the whole ranges."},
  {"property": "C457", "status": "partial", "theorems": ["Verif.Acl.C457_same", "Verif.Acl.C457_item_partial", "Verif.Acl.C457_item_refuted"], "note": "Proved for all histories: the same expression gives the same class; the item type is T if all classes used have different names. Refuted: after a class of the same name has been used the item type is never T."},
  {"property": "C458", "status": "partial", "theorems": ["Verif.Acl.C458_cast_partial", "Verif.Acl.C458_changes_refuted", "Verif.Acl.C458_queries_refuted", "Verif.Acl.C458_index_refuted"], "note": "Proved: cast keeps number and order, the inherited append works. Refuted: add, remove, del and clear change nothing and report failure, contains is always false, count zero, find zero, indexing gives a new object."},
  {"property": "C459", "status": "partial", "theorems": ["Verif.Acl.C459_own_partial", "Verif.Acl.C459_defaults_partial", "Verif.Acl.C459_default_refuted", "Verif.Acl.C459_inherit_refuted"], "note": "Proved: with its own create without **kwargs every mapping is accepted, unknown keys are dropped and values are passed by key; for an inherited create or one with **kwargs the exact condition of success, with defaults for missing keys. Refuted: with its own create missing keys give None, not the default; a subclass that inherits create raises for unknown keys."},
  {"property": "C46", "status": "partial", "theorems": ["Verif.Implicit.C46_ops", "Verif.Implicit.C46_tree_partial", "Verif.Implicit.C46_sub_refuted", "Verif.Implicit.C46_bounds_partial", "Verif.Implicit.C46_bounds_exist", "Verif.Implicit.C46_intersection2d_refuted", "Verif.Implicit.C46_sub_bounds_refuted"], "note": "Union and intersection (of whole trees) proved with bounds; Sub(a,b) is b without a, its bounds are those of a, and Intersection2D always raises (refuted)."},
  {"property": "C460", "status": "partial", "theorems": ["Verif.Acl.C460_back_partial", "Verif.Acl.C460_reduced", "Verif.Acl.C460_triangular", "Verif.Acl.C460_largest", "Verif.Acl.C460_reduced_system_partial", "Verif.Acl.C460_solve_refuted", "Verif.Acl.C460_pivot_refuted"], "note": "Proved: row_reduce gives a triangular matrix for every square matrix, each pivot is the largest entry of its column; back_solve solves every upper triangular system with pivots not too small, so also the reduced one; the reduced Hessian has the free rows and columns. Refuted: row_reduce leaves the right side as it was, so the pair does not solve the original system; one small pivot gives zero."},
  {"property": "C461", "status": "partial", "theorems": ["Verif.Gm.C461_sound", "Verif.Gm.C461_ends", "Verif.Gm.C461_complete_partial", "Verif.Gm.C461_flat_refuted"], "note": "Proved: every returned pair comes by subdivision from a given pair and the boxes meet; the search ends when subdivision makes boxes small; a common point is in a returned pair unless a pair with it is rejected as flat (and under the stated properties of boxes and gjk). Refuted: when the patches of one surface are horizontal nothing is returned."},
  {"property": "C462", "status": "partial", "theorems": ["Verif.Msc.C462_new_partial", "Verif.Msc.C462_points_refuted", "Verif.Msc.C462_twice_refuted", "Verif.Msc.C462_last_refuted"], "note": "Proved: on a new terminator exactly the stored points can be removed and the count goes down by one. Refuted: the stored points never change; with three or more points a point can be removed twice; of two points the second cannot be removed after the first."},
  {"property": "C463", "status": "partial", "theorems": ["Verif.Msc.C463_support_partial", "Verif.Msc.C463_low_refuted"], "note": "Proved when some vertex is above the start value -sys.float_info.max. Refuted: otherwise, in particular for no vertices, the zero vector is returned."},
  {"property": "C464", "status": "partial", "theorems": ["Verif.Msc.C464_evaluate", "Verif.Msc.C464_coordinates", "Verif.Msc.C464_interval_refuted"], "note": "Proved: the equation holds for evaluate, fx and fy give exactly the points. Refuted: the interval is (0, 1), so only one radian of the circle is the curve."},
  {"property": "C465", "status": "partial", "theorems": ["Verif.Msc.C465_edge_partial", "Verif.Msc.C465_edge_refuted"], "note": "Proved: what is returned is the polygon given, closed or with both ends on one side. Refuted: a trim from the left to the right side gives None."},
  {"property": "C466", "status": "partial", "theorems": ["Verif.Msc.C466_lines", "Verif.Msc.C466_polygon_refuted"], "note": "Proved: the sides in order. Refuted: point_in_polygon raises for every polygon."},
  {"property": "C467", "status": "partial", "theorems": ["Verif.Icp.C467_planes", "Verif.Icp.C467_step_partial", "Verif.Icp.C467_limit", "Verif.Icp.C467_contact_refuted", "Verif.Icp.C467_success_refuted"], "note": "Proved: for two planes the closest common point with success; the last step is not longer than the tolerance; without convergence failure and nothing written. Refuted: parallel gradients at the start give failure also for a point on both surfaces; success is reported for a surface without points."},
  {"property": "C468", "status": "partial", "theorems": ["Verif.Icp.C468_line", "Verif.Icp.C468_step_partial", "Verif.Icp.C468_critical_refuted"], "note": "Proved: for lines the closest point in two rounds; the last step is shorter than the tolerance. Refuted: a critical point of the function is returned as it is; surface_plane raises for every point of space."},
  {"property": "C469", "status": "proved", "theorems": ["Verif.Icp.C469_first", "Verif.Icp.C469_descent"], "note": "For all objectives; n is the number of coordinates."},
  {"property": "C47", "status": "partial", "theorems": ["Verif.Step.C47_numbering", "Verif.Step.C47_append", "Verif.Step.C47_dangling_refuted"], "note": "Proved for all histories in which the caller passes references that are in the file; a caller's unchecked number is written as is (refuted)."},
  {"property": "C470", "status": "proved", "theorems": ["Verif.Icp.C470_grid_place", "Verif.Icp.C470_grid_length", "Verif.Icp.C470_grid", "Verif.Icp.C470_frame"], "note": "Where the gradients are independent; the norm meets its specification."},
  {"property": "C471", "status": "partial", "theorems": ["Verif.Cnr.C471_jacobian", "Verif.Cnr.C471_step", "Verif.Cnr.C471_line_plane", "Verif.Cnr.C471_parallel_refuted", "Verif.Cnr.C471_disjoint_refuted"], "note": "Proved: the central differences are exact up to degree two and agree with the analytic matrix; the step solves the linear model; a line and a plane that are not parallel give their only common point from every guess. Refuted: a parallel pair with a guess raises; for a parabola above a plane a result is returned from every guess other than -1, 0, 1, for every tolerance and limit."},
  {"property": "C472", "status": "partial", "theorems": ["Verif.Cnr.C472_point_normal", "Verif.Cnr.C472_parametric", "Verif.Cnr.C472_frame_refuted"], "note": "Proved: for rows origin, normal the first function; for orthonormal planes and rays along the normal the second. Refuted: given the four rows of a plane the first function takes the x axis for the normal."},
  {"property": "C473", "status": "partial", "theorems": ["Verif.Ofs.C473_inverse", "Verif.Ofs.C473_error_partial", "Verif.Ofs.C473_flat", "Verif.Ofs.C473_slow_refuted"], "note": "Proved for offsets above zero: exactly when the inverse exists, its interval, a bound of the error, equality for constant speed at least one half. Refuted: where twice the offset in parameters is shorter than the offset the evaluation raises."},
  {"property": "C474", "status": "partial", "theorems": ["Verif.Implicit.C474_inside", "Verif.Implicit.C474_difference_refuted", "Verif.Implicit.C474_gradient", "Verif.Implicit.C474_project_partial", "Verif.Implicit.C474_tangent", "Verif.Implicit.C474_many_refuted"], "note": "Proved: trees of unions and intersections (in the plane an intersection cannot be built, C46), the gradient of length one, the tangent. Refuted: differences are the wrong way round; a call with several points raises; the projection along the gradient hits a plane only for coefficients of length one."},
  {"property": "C475", "status": "partial", "theorems": ["Verif.Bvh.C475_box", "Verif.Bvh.C475_subdivide", "Verif.Bvh.C475_halving", "Verif.Bvh.C475_clip_partial", "Verif.Bvh.C475_clip_expand_refuted", "Verif.Bvh.C475_value_refuted", "Verif.Bvh.C475_ray", "Verif.Bvh.C475_ray_evaluate_refuted", "Verif.Bvh.C475_valid", "Verif.Bvh.C475_flat_refuted", "Verif.Bvh.C475_contains"], "note": "Proved: subdividing, the smallest box, halving, contains_points, clipping to a box just built for directions with no component between 0 and the tolerance, the points of a ray. Refuted: after expand clip still takes the old corners; the pieces lose the value; evaluate of a ray is not at distance t; the box of a flat object is never valid."},
  {"property": "C476", "status": "partial", "theorems": ["Verif.Sinv.C476_range_partial", "Verif.Sinv.C476_each", "Verif.Sinv.C476_nearest_refuted", "Verif.Sinv.C476_batch_single_partial", "Verif.Sinv.C476_batch_refuted", "Verif.Sinv.C476_rectangle"], "note": "Proved: the search ends, results are in the range and in the rectangle of the quads found, one result for each point independent of the others, the batch with one point. Refuted: a band where the nearest point is outside of the boxes that contain the point; a batch where another point spoils a result."},
  {"property": "C477", "status": "partial", "theorems": ["Verif.Kdc.C477_agrees_partial", "Verif.Kdc.C477_derivative_partial", "Verif.Kdc.C477_order_refuted", "Verif.Kdc.C477_line", "Verif.Kdc.C477_spans"], "note": "Proved up to the degree: the rows exist where no denominator is zero and agree with the compiled function; on a span they are the control points of the derivatives as polynomials; lines have a constant derivative; find_spans. Refuted: for an order above the degree with more than p + 1 control points the function always raises instead of giving zeros."},
  {"property": "C478", "status": "partial", "theorems": ["Verif.Opt.C478_tangent", "Verif.Opt.C478_planes_partial", "Verif.Opt.C478_still_refuted", "Verif.Opt.C478_difference", "Verif.Opt.C478_straight", "Verif.Opt.C478_circle"], "note": "Proved: the tangent is a unit vector perpendicular to both normals at the new parameters; the derivative is a central difference with the sign of the step; zero for straight intersections. Partial: on planes the points move by the step where the systems chosen are regular. Refuted: on a horizontal plane with parameters along the axes they never move. For a circle the vector points to the centre but its length is 1/sqrt(R^2+eps^2), less than the curvature. The nearest points in sectional_tangent are a parameter."},
  {"property": "C479", "status": "partial", "theorems": ["Verif.Clm.C479_nearest_partial", "Verif.Clm.C479_space_refuted", "Verif.Clm.C479_expand", "Verif.Clm.C479_turn", "Verif.Clm.C479_turn_space_refuted", "Verif.Clm.C479_grid", "Verif.Clm.C479_distinct"], "note": "Proved in the plane: nearest point with a margin, least range, turn, grid and no repetitions. Refuted in space: clamp drops the third coordinate, and perp2d is perpendicular only where the third component is zero."},
  {"property": "C48", "status": "proved", "theorems": ["Verif.Step.C48_multiplicities", "Verif.Step.C48_exact", "Verif.Step.C48_sorted"], "note": ""},
  {"property": "C480", "status": "partial", "theorems": ["Verif.ApiMat.C480_meaning_partial", "Verif.ApiMat.C480_symmetry_refuted", "Verif.ApiMat.C480_chain_refuted", "Verif.ApiMat.C480_zero"], "note": "Proved: reflexive; vectors within the absolute tolerance are equal both ways; equal vectors are equal the other way with slightly larger tolerances; equality with the zero vector. Refuted: for every vector with a coordinate large enough there is one that equals it but which it does not equal; any two vectors are joined by a chain of equal ones."},
  {"property": "C481", "status": "partial", "theorems": ["Verif.Fea.C481_sound", "Verif.Fea.C481_complete_partial", "Verif.Fea.C481_gap_refuted", "Verif.Fea.C481_exchanged_refuted"], "note": "Proved: guesses are in the ranges and within the threshold; for objects of bounded speed every intersection has a guess within half a step if the threshold is at least the change over half a step. Refuted: the counts put evenly spaced samples always farther apart than the threshold; the counts for u and v are exchanged."},
  {"property": "C482", "status": "partial", "theorems": ["Verif.Ppx.C482_orbit_partial", "Verif.Ppx.C482_closed_refuted", "Verif.Ppx.C482_edge_refuted", "Verif.Ppx.C482_apart_refuted", "Verif.Ppx.C482_goes_on_iff", "Verif.Ppx.C482_wrap_refuted"], "note": "Proved: the number of pairs, what each pair is, and that only a negative parameter ends the march early. Refuted: closed curves are followed round and round, a march goes beyond the edge though stop_check holds there, and pairs that are not close are returned."},
  {"property": "C483", "status": "proved", "theorems": ["Verif.Imf.C483_product", "Verif.Imf.C483_bounded", "Verif.Imf.C483_parts"], "note": "Exact ordered field."},
  {"property": "C484", "status": "partial", "theorems": ["Verif.Imf.C484_symmetric", "Verif.Imf.C484_bounded_partial", "Verif.Imf.C484_bounded_refuted", "Verif.Imf.C484_distance_refuted"], "note": "Proved: the symmetries, and the bound between the planes z = -1 and z = 1. Refuted: the region reaches to infinity beyond these planes; no multiple of the function is a signed distance."},
  {"property": "C485", "status": "proved", "theorems": ["Verif.Imf.C485_ellipsoid"], "note": "Real numbers with the exact sine and cosine."},
  {"property": "C486", "status": "partial", "theorems": ["Verif.Sbv.C486_pieces", "Verif.Sbv.C486_boxes_partial", "Verif.Sbv.C486_boxes_refuted", "Verif.Sbv.C486_default_partial", "Verif.Sbv.C486_default_refuted"], "note": "Proved: the pieces cover the interval and join; the boxes hold the curve if its coordinates rise or fall on each piece; a default piece is at most one over the degree long. Refuted: for every count a parabola leaves the boxes; on [0, 1] a closed polyline has one segment whose box is a point."},
  {"property": "C49", "status": "partial", "theorems": ["Verif.Brep.C49_index", "Verif.Brep.C49_append", "Verif.Brep.C49_returned", "Verif.Brep.C49_dedup", "Verif.Brep.C49_vertex_dedup", "Verif.Brep.C49_unique", "Verif.Brep.C49_same_partial", "Verif.Brep.C49_zero_refuted", "Verif.Brep.C49_collision_refuted", "Verif.Brep.C49_table", "Verif.Brep.C49_symmetric", "Verif.Brep.C49_neighbours", "Verif.Brep.C49_row", "Verif.Brep.C49_loop"], "note": "Indices, references, one index per hash over whole histories, symmetric adjacency table proved; equal points with zeros of different sign get two indices and hash collisions identify different geometry (refuted)."},
  {"property": "C50", "status": "partial", "theorems": ["Verif.ApiBox.C50_contains_plane", "Verif.ApiBox.C50_contains_partial", "Verif.ApiBox.C50_contains_refuted", "Verif.ApiBox.C50_copy_partial", "Verif.ApiBox.C50_copy_refuted", "Verif.ApiBox.C50_copy_plane_refuted", "Verif.ApiBox.C50_combine", "Verif.ApiBox.C50_combine_plane", "Verif.ApiBox.C50_expand", "Verif.ApiBox.C50_intersects", "Verif.ApiBox.C50_intersects_plane", "Verif.ApiBox.C50_from_points", "Verif.ApiBox.C50_union"], "note": "combine, expand, union, intersects, overlap and planar contains proved; copy exchanges the corners and contains in space ignores z (both refuted for every box with extent)."},
  {"property": "C51", "status": "partial", "theorems": ["Verif.KdTree.C51_nearest_after_delete_refuted", "Verif.KdTree.C51_returns_stored_partial", "Verif.KdTree.C51_first_delete_partial"], "note": "refuted on a concrete history with one delete; proved: a stored point is always returned, and the query is exact after the first delete from a perfect tree in general position"},
  {"property": "C52", "status": "partial", "theorems": ["Verif.Sort.C52_chain_collapse_refuted", "Verif.Sort.C52_cover_partial"], "note": "refuted: chains collapse; weaker bound (n-1)*eps proved"},
  {"property": "C53", "status": "partial", "theorems": ["Verif.Interval.C53_compare_intervals", "Verif.Interval.C53_compare_number_refuted", "Verif.Interval.C53_less_number_partial"], "note": "interval/interval proved; number version refuted for >, proved for <"},
  {"property": "C54", "status": "partial", "theorems": ["Verif.Nurbs.C54_evaluate_terminates_partial", "Verif.Nurbs.C54_find_span_hangs", "Verif.Nurbs.C54_evaluate_terminates_refuted"], "note": "Terminates for left-clamped vectors at every parameter; for every unclamped vector the loop never ends on [U[0],U[p])."},
  {"property": "C55", "status": "partial", "theorems": ["Verif.Nurbs.C55_periodic_evaluate_partial", "Verif.Nurbs.C55_periodic_evaluate_refuted"], "note": "Refuted: span found at wrapped parameter, basis functions at the unwrapped one. Inside the domain the flag has no effect."},
  {"property": "C56", "status": "partial", "theorems": ["Verif.Nurbs.C56_split_partial", "Verif.Nurbs.C56_split_refuted"], "note": "Both pieces equal the original on their halves for equal weights; refuted for rational curves."},
  {"property": "C57", "status": "partial", "theorems": ["Verif.Nurbs.C57_split_multiple_partial", "Verif.Nurbs.C57_decompose_bezier"], "note": "Induction over the parameter list for equal weights; decompose into Bezier pieces; rational curves excluded because C56 fails for them."},
  {"property": "C58", "status": "partial", "theorems": ["Verif.Nurbs.C58_flip_refuted", "Verif.Nurbs.C58_flip_knots_decrease"], "note": "Refuted; the flipped knot vector decreases on every curve."},
  {"property": "C59", "status": "partial", "theorems": ["Verif.Nurbs.C59_trim_refuted"], "note": "Refuted: wrong number of knots / control points."},
  {"property": "C60", "status": "proved", "theorems": ["Verif.Nurbs.C60_greville"], "note": "Bounds and monotonicity of the Greville abscissae."},
  {"property": "C61", "status": "proved", "theorems": ["Verif.Nurbs.C61_surface_evaluate"], "note": "find_span, basis functions and the double loop of surface_point"},
  {"property": "C62", "status": "proved", "theorems": ["Verif.Nurbs.C62_insert_knot_u", "Verif.Nurbs.C62_insert_knot_v"], "note": "arbitrary weights; multiplicity tolerance must only match equal knots"},
  {"property": "C63", "status": "proved", "theorems": ["Verif.Nurbs.C63_split_surface_u", "Verif.Nurbs.C63_split_surface_v", "Verif.Nurbs.C63_split_ends"], "note": "inner parameters; see SplitAt for the exact hypotheses"},
  {"property": "C64", "status": "proved", "theorems": ["Verif.Nurbs.C64_surface_bbox"], "note": "positive weights"},
  {"property": "C65", "status": "proved", "theorems": ["Verif.Nurbs.C65_subdivide", "Verif.Nurbs.C65_decompose_surface"], "note": ""},
  {"property": "C66", "status": "proved", "theorems": ["Verif.Nurbs.C66_normalize_knots", "Verif.Nurbs.C66_curve_normalize_knots"], "note": "surfaces and non-periodic curves"},
  {"property": "C67", "status": "proved", "theorems": ["Verif.Nurbs.C67_default_knots", "Verif.Nurbs.C67_curve_default_knots"], "note": ""},
  {"property": "C68", "status": "partial", "theorems": ["Verif.Nurbs.C68_make_periodic_partial", "Verif.Nurbs.C68_make_periodic_refuted"], "note": "ends of the evaluation domain coincide; is_closed() evaluates at the first and last knot and is refuted"},
  {"property": "C69", "status": "partial", "theorems": ["Verif.Nurbs.C69_is_periodic_partial", "Verif.Nurbs.C69_is_periodic_refuted", "Verif.Nurbs.C69_make_open_refuted"], "note": "is_periodic only looks at the last compared row; make_open drops control points of an open curve"},
  {"property": "C70", "status": "proved", "theorems": ["Verif.Bvh.C70_segment_query"], "note": ""},
  {"property": "C71", "status": "partial", "theorems": ["Verif.Bvh.C71_list_kept_partial", "Verif.Bvh.C71_list_order_refuted"], "note": "same objects, but the list is sorted in place"},
  {"property": "C72", "status": "proved", "theorems": ["Verif.Bvh.C72_traverse_point"], "note": ""},
  {"property": "C73", "status": "proved", "theorems": ["Verif.ImplTree.C73_reduce_collapse", "Verif.ImplTree.C73_recollapse"], "note": ""},
  {"property": "C74", "status": "partial", "theorems": ["Verif.ImplTree.C74_tree3d", "Verif.ImplTree.C74_tree2d_partial", "Verif.ImplTree.C74_rebuild", "Verif.ImplTree.C74_bounds_refuted", "Verif.ImplTree.C74_full_inside_refuted"], "note": "3D proved. 2D build() reports cells of shape.bounds() although the tree was built on self.bounds: refuted when bounds are passed, proved when they agree. Also shown: a full cell is only inside at its corners."},
  {"property": "C75", "status": "partial", "theorems": ["Verif.ImplTree.C75_terminates", "Verif.ImplTree.C75_leaves", "Verif.ImplTree.C75_twice_refuted"], "note": "Termination and tiling proved for a new root; a second call on the same root duplicates the leaves (refuted)."},
  {"property": "C76", "status": "proved", "theorems": ["Verif.ImplTree.C76_closest_node"], "note": ""},
  {"property": "C77", "status": "proved", "theorems": ["Verif.ImplTree.C77_traverse"], "note": ""},
  {"property": "C78", "status": "proved", "theorems": ["Verif.ImplTree.C78_predicates"], "note": ""},
  {"property": "C79", "status": "proved", "theorems": ["Verif.ImplTree.C79_division2d"], "note": ""},
  {"property": "C80", "status": "proved", "theorems": ["Verif.ImplTree.C80_power_of_two", "Verif.ImplTree.C80_closest_refuted"], "note": "least power not below x; the closest-power comment is refuted"},
  {"property": "C81", "status": "partial", "theorems": ["Verif.DnC.C81_search_partial", "Verif.DnC.C81_keeps_best", "Verif.DnC.C81_minimum_refuted"], "note": "Termination, range, box size and keeping the best sample proved; minimality refuted by a convex function."},
  {"property": "C82", "status": "partial", "theorems": ["Verif.DnC.C82_single_column_partial", "Verif.DnC.C82_columns_refuted"], "note": "Agrees for one column; with several columns the loop stops when one column has converged (refuted)."},
  {"property": "C83", "status": "partial", "theorems": ["Verif.DnC.C83_nd_partial", "Verif.DnC.C83_minimum_refuted"], "note": "Result lies in the range; minimality refuted by a linear function."},
  {"property": "C84", "status": "partial", "theorems": ["Verif.DnC.C84_scan_partial", "Verif.DnC.C84_once_refuted"], "note": "All but exactly-once reporting of a root: a root on the grid is reported with the next grid point (refuted)."},
  {"property": "C85", "status": "partial", "theorems": ["Verif.DnC.C85_terminates", "Verif.DnC.C85_root_partial", "Verif.DnC.C85_zero_midpoint_refuted"], "note": "None and termination proved; root within tolerance proved when no dyadic sample point is a root; otherwise refuted."},
  {"property": "C86", "status": "partial", "theorems": ["Verif.DnC.C86_min_partial", "Verif.DnC.C86_boundary_refuted"], "note": "A returned value is within two steps of the minimiser; a minimum at either end raises IndexError for every strictly monotone function (refuted)."},
  {"property": "C87", "status": "partial", "theorems": ["Verif.Vec.C87_decompose_partial", "Verif.Vec.C87_dependent_refuted"], "note": "Independent vectors proved; for dependent vectors the output is uninitialised memory (refuted)."},
  {"property": "C88", "status": "partial", "theorems": ["Verif.Vec.C88_projection", "Verif.Vec.C88_closest_partial", "Verif.Vec.C88_closest_refuted"], "note": "vector_projection proved; closest_point_on_line returns the point minus the start of the line (refuted)."},
  {"property": "C89", "status": "partial", "theorems": ["Verif.Vec.C89_scalar", "Verif.Vec.C89_not_unit_refuted", "Verif.Vec.C89_aliased_refuted", "Verif.Vec.C89_rows_refuted"], "note": "Scalar variants proved for a unit first vector; array version, aliased output and other first vectors refuted."},
  {"property": "C90", "status": "partial", "theorems": ["Verif.Vec.C90_dot", "Verif.Vec.C90_products_partial", "Verif.Vec.C90_uninitialised_refuted"], "note": "dot proved; the others accumulate into uninitialised memory (refuted), right when it holds zeros."},
  {"property": "C91", "status": "partial", "theorems": ["Verif.Vec.C91_unit", "Verif.Vec.C91_perp", "Verif.Vec.C91_from_normal_partial", "Verif.Vec.C91_handedness_refuted", "Verif.Vec.C91_normal_origin_partial", "Verif.Vec.C91_normal_origin_refuted", "Verif.Vec.C91_from_points", "Verif.Vec.normSpec_sqrt"], "note": "Orthonormality proved; plane_from_normal2 is left-handed and plane_from_normal_origin fails for origins along the normal (refuted)."},
  {"property": "C92", "status": "partial", "theorems": ["Verif.Vec.C92_equation", "Verif.Vec.C92_distance_refuted", "Verif.Vec.C92_from_equation_partial", "Verif.Vec.C92_origin_refuted"], "note": "The equation is proved; it is not normalised (refuted as a distance) and plane_from_eq puts the origin on the wrong side (refuted)."},
  {"property": "C93", "status": "proved", "theorems": ["Verif.Vec.C93_project", "Verif.Vec.C93_distance", "Verif.Vec.C93_not_unit_refuted"], "note": "for unit normals; refuted for others"},
  {"property": "C94", "status": "proved", "theorems": ["Verif.Vec.C94_plane_line"], "note": ""},
  {"property": "C95", "status": "partial", "theorems": ["Verif.Vec.C95_no_overlap_partial", "Verif.Vec.C95_race_refuted"], "note": "Proved for every order of non-overlapping iterations; refuted for an interleaving."},
  {"property": "C96", "status": "partial", "theorems": ["Verif.Vec.C96_classify", "Verif.Vec.C96_small_refuted"], "note": "Vertex class and edge points proved; interior points of small triangles are classified as edge (refuted)."},
  {"property": "C97", "status": "partial", "theorems": ["Verif.Vec.C97_local_max", "Verif.Vec.C97_max_partial", "Verif.Vec.C97_max_refuted"], "note": "A local maximum always; the maximum for unimodal columns; refuted for the identity matrix."},
  {"property": "C98", "status": "proved", "theorems": ["Verif.Vec.C98_support"], "note": ""},
  {"property": "C99", "status": "partial", "theorems": ["Verif.Vec.C99_triangle", "Verif.Vec.C99_shift", "Verif.Vec.C99_open_refuted"], "note": "Triangles as closed chains and translation of closed chains proved; refuted for chains without the closing point."}
]}
