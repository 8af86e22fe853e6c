#!/usr/bin/env python3
# regenerates MANIFEST.json
import json
C=[]
def c(p,s,t,n): C.append(dict(property=p,status=s,theorems=["R3D."+x for x in t],note=n))
c("C01","proved",["C01_r2d_clip_linked","C01_r2d_clip_safe"],"Arbitrary (lawless) arithmetic; the only fault is running out of buffer.")
c("C02","proved",["C02_r2d_clip_inside"],"Exact arithmetic over any ordered field.")
c("C03","proved",["C03_r2d_clip_intersection"],"Winding numbers, any ordered field, any doubly linked polygon.")
c("C04","proved",["C04_r2d_clip_no_planes","C04_r2d_clip_empty","C04_r2d_clip_inside_unchanged","C04_r2d_clip_outside_empty"],"The vertex buffer is returned unchanged, not just equivalent.")
c("C05","proved",["C05_r2d_clip_partition","C05_zero_plane"],"Any ordered field, any order, both SHIFT_POLY variants; the plane 0=0 is excluded, and shown to need exclusion.")
c("C06","proved",["C06_r2d_split_linked","C06_r2d_split_safe","C06_r2d_split_parts","C06_r2d_split_moments","C06_r2d_split_onesided"],"Links with arbitrary arithmetic; sides, coverage, moments and pass-through over any ordered field. Which output gets which side is C07.")
c("C07","partial",["C07_r2d_split_pos_false","C07_r2d_split_sides_partial"],"The documented side assignment is false of the code (sdists are negated): negation proved with a witness; what holds is the swapped assignment.")
c("C08","partial",["C08_r2d_clip_false","C08_r2d_split_false","C08_r2d_clip_full_overflows","C08_r2d_clip_room_partial","C08_r2d_split_room_partial"],"False of the code (no capacity check): negation proved with a 256-vertex witness; sufficient room conditions proved.")
c("C09","proved",["C09_r2d_reduce_exact","C09_r2d_reduce_empty"],"Lebesgue integral over R^2 of winding number times monomial; every order; both SHIFT_POLY variants.")
c("C10","proved",["C10_r2d_shift","C10_r2d_shift_moments"],"Any field of characteristic 0.")
c("C11","proved",["C11_r2d_translate","C11_r2d_scale","C11_r2d_shear","C11_r2d_affine","C11_r2d_scale_moments","C11_r2d_translate_moments","C11_r2d_affine_area","C11_r2d_shear_area"],"Positions with arbitrary arithmetic, effect on moments over any field of characteristic 0.")
c("C12","partial",["C12_r2d_rotate_false","C12_r2d_rotate_partial","C12_r2d_rotate_zero_collapses"],"False of the code (pos.x assigned twice): negation proved over R; what is computed instead is proved, and that the rotation by 0 collapses every polygon.")
c("C13","partial",["C13_r2d_is_good_false","C13_r2d_is_good_negative_oob","C13_r2d_is_good_partial","C13_r2d_is_good_accepts","C13_r2d_is_good_linked"],"False as documented (self-pointing vertices accepted): negation proved; exact characterisation for polys without self-pointers and negative links.")
c("C14","proved",["C14_r2d_init_box","C14_r2d_init_poly","C14_r2d_init_box_winding","C14_r2d_init_box_area","C14_r2d_init_poly_area"],"Links and positions with arbitrary arithmetic; covered region over ordered fields; areas over fields of characteristic 0.")
c("C15","proved",["C15_r2d_poly_faces","C15_r2d_poly_faces_unit"],"Any ordered field and any square root that is positive on positives.")
c("C16","partial",["C16_r2d_box_faces_false","C16_r2d_box_faces_partial","C16_r2d_box_faces_origin_partial","C16_r2d_box_faces_wrong"],"False of the code (sign of d for the lower sides): negation proved; what the planes describe is proved.")
c("C17","proved",["C17_r2d_orient_swap","C17_r2d_orient_translate","C17_r2d_orient_reduce","C17_r2d_orient_pos","C17_r2d_orient_area"],"Any field; the area statement over R.")
c("C18","proved",["C18_r2d_rasterize_conserves","C18_r2d_rasterize_nothing"],"exact arithmetic over any ordered field; any polygon, inside the box or not")
c("C19","proved",["C19_r2d_rasterize_region","C19_r2d_rasterize_exact"],"over the reals; the region theorem says what happens to the part outside the index box: border cells collect it")
c("C20","proved",["C20_r2d_rasterize_in_bounds","C20_r2d_rasterize_safe","C20_r2d_grid_slots"],"whatever the arithmetic; log2 taken as exact (C66 removes this); the split has no capacity check, so a piece that does not fit the vertex buffer is the only failure")
c("C21","proved",["C21_r2d_get_ibox_minimal","C21_r2d_get_ibox_not_minimal_beyond"],"coordinates up to 1e30, beyond which minimality is false; conversion to int assumed in range")
c("C22","proved",["C22_r2d_clamp_ibox","C22_r2d_clamp_disjoint","C22_r2d_clamp_inside","C22_r2d_clamp_stays_in_box"],"coverage statement for points off the clamp lines")
c("C23","proved",["C23_r3d_clip_mutual","C23_r3d_clip_valid"],"Arbitrary (lawless) arithmetic. One plane for any three-distinct-mutual-neighbours graph; any list of planes for graphs where the two sides of an edge differ and two faces share at most one edge.")
c("C24","proved",["C24_r3d_clip_inside","C24_r3d_clip_inside_one"],"Exact arithmetic over any ordered field.")
c("C25","proved",["C25_r3d_clip_intersection"],"Cover numbers, any ordered field, any polyhedron with valid graph and flat faces (convex or not), any list of planes.")
c("C26","partial",["C26_r3d_clip_return_partial","C26_r3d_split_return_partial","C26_r3d_clip_failure_corrupts","C26_r3d_split_failure_corrupts"],"In-bounds and return codes proved; the part 'on failure the polyhedron is untouched' is false of the code: negation proved with witnesses.")
c("C27","proved",["C27_r3d_clip_partition","C27_r3d_split_partition"],"Over R; every closed polyhedron with flat faces, every plane except 0=0 (for the clips; none excluded for the split), every order, both SHIFT_POLY variants.")
c("C28","proved",["C28_r3d_split_parts","C28_r3d_split_onesided"],"Graphs, sides, hull, cover numbers at every point; one-sided inputs are copied and the other output zeroed.")
c("C29","proved",["C29_r3d_reduce_exact","C29_r3d_reduce_faces","C29_r3d_reduce_empty"],"Lebesgue integral over R^3 of cover number times monomial; every order; both SHIFT_POLY variants. For faces that are not flat: the sum over the sides of all faces, each once.")
c("C30","proved",["C30_r3d_shift"],"Any field of characteristic 0, faces flat or not.")
c("C31","proved",["C31_r3d_rotate","C31_r3d_translate","C31_r3d_scale","C31_r3d_shear","C31_r3d_affine","C31_r3d_rotate_isometry","C31_moved_valid"],"Positions with arbitrary arithmetic; isometry over R.")
c("C32","partial",["C32_r3d_is_good_partial","C32_r3d_is_good_test","C32_valid_accepted","C32_clip_accepted","C32_prism_overflow","C32_not_claim_overflow","C32_not_claim_oneway","C32_not_claim_negative","C32_accepts_loops","C32_accepts_twisted"],"Full claim C32_claim is false: stack overflow for valid prisms filling half of the buffer, one-way links, negative links. Proved for mutual links and 2*nverts+1 <= R3D_MAX_VERTS; exact test proved for one-way links too.")
c("C33","proved",["C33_r3d_init_tet","C33_r3d_init_box","C33_r3d_init_tet_outward","C33_r3d_init_box_outward","C33_r3d_init_tet_volume","C33_r3d_init_box_volume","C33_r3d_init_tet_integral"],"Graphs in any arithmetic, outward faces over ordered fields, volumes over fields of characteristic 0.")
c("C35","partial",["C35_r3d_box_faces","C35_r3d_box_faces_dist","C35_r3d_tet_faces","C35_r3d_tet_faces_inside","C35_r3d_poly_face_partial","C35_r3d_poly_face_convex","C35_r3d_poly_faces_loop","C35_r3d_poly_faces_outward","C35_r3d_poly_face_reflex"],"Boxes and tetrahedra proved in full. For r3d_poly_faces_from_verts the statement is false (outward planes for the order r3d_init_poly needs; a face with a reflex corner can be inverted): witnesses proved, convex faces proved.")
c("C36","proved",["C36_r3d_orient_eq","C36_r3d_orient_swap","C36_r3d_orient_perm","C36_r3d_orient_translate","C36_r3d_orient_reduce"],"All permutations; any field (characteristic 0 for r3d_reduce).")
c("C37","proved",["C37_r3d_voxelize_conserves","C37_r3d_voxelize_nothing","C37_r3d_voxelize_region","C37_r3d_voxelize_exact"],"Over R; any closed polyhedron with flat faces, inside the box or not; also exact per cell. Border cells collect what is outside the box.")
c("C38","proved",["C38_r3d_voxelize_in_bounds","C38_r3d_voxelize_safe","C38_r3d_grid_slots"],"Whatever the arithmetic; log2 taken as exact (C66 removes this); the split has no capacity check, so a piece that does not fit the vertex buffer is the only failure.")
c("C39","partial",["C39_r3d_get_ibox_minimal","C39_r3d_get_ibox_not_minimal_beyond","C39_r3d_clamp_ibox_partial","C39_r3d_clamp_box","C39_r3d_clamp_disjoint","C39_r3d_clamp_inside","C39_r3d_clamp_stays_in_box_partial","C39_r3d_clamp_full"],"Index box and get_ibox (coordinates up to 1e30) proved. The polyhedron is clipped only if r3d_clip has room: its return value is ignored, witness proved.")
c("C34","proved",["C34_r3d_init_poly","C34_faces_valid","C34_r3d_init_poly_full","C34_r3d_init_poly_invalid"],"Closed oriented face lists with three corners per vertex that fit the buffer; faces listed and faces of the graph correspond one to one, in opposite direction.")
c("C40","partial",["C40_r3d_init_brep_partial","C40_indices","C40_no_coincident","C40_rep_pos","C40_roundtrip","C40_r3d_init_brep_empty","C40_r3d_init_brep_full"],"Valid polyhedra with 0 < nverts < R3D_MAX_VERTS, any coincidence pattern, any number of components. False for the empty poly and for every full buffer: both proved to be out of bounds.")
c("C41","proved",["C41_rNd_det","C41_rNd_orient","C41_volume","C41_swap","C41_translate"],"Every dimension D >= 1: rNd_det is the determinant, rNd_orient D! times the signed volume of the simplex (volume over the reals).")
c("C42","proved",["C42_rNd_init_simplex","C42_rNd_init_box"],"Every dimension and arithmetic, buffers of at least D+1 and 2^D vertices. Also the numbering of the 2-faces.")
c("C43","partial",["C43_rNd_affine_computes","C43_affine_matrix_divides_by_zero","C43_rNd_affine_partial","C43_rNd_affine_false","C43_identity"],"False of the code: = where += is needed, and mat[D][D] missing from the divisor. Negation proved with a witness; what is computed instead is proved for all matrices.")
c("C46","proved",["C46_rNd_translate","C46_rNd_scale","C46_rNd_shear","C46_rNd_shear_bad_axis","C46_rNd_rotate","C46_rotate_lengths","C46_rotate_same_axis"],"Every dimension. Rotation for ax1 != ax2; with equal axes it is not a rotation (proved).")
c("C44","partial",["C44_rNd_clamp_overflow","C44_rNd_clamp_false","C44_rNd_clamp_partial","C44_rNd_clamp_six_partial","C44_rNd_clamp_disjoint"],"False for RND_DIM = 4: boxfaces has 6 elements, so an index box sticking out on more than six sides overruns it (proved for all of them). Proved for dimension at most 3 and for at most six sides.")
c("C45","proved",["C45_rNd_voxelize_in_bounds","C45_rNd_grid_slots"],"Every dimension, poly and arithmetic; log2 taken as exact (C66 removes this). The only failure is a fault inside rNd_split or rNd_reduce on one of the pieces.")
c("C47","proved",["C47_rNd_get_ibox_minimal","C47_rNd_get_ibox_not_minimal_beyond"],"Coordinates up to 1e30, beyond which minimality is false; conversion to int assumed in range.")
c("C48","partial",["C48_rNd_clip_simple","C48_rNd_clip_dim2_fails","C48_rNd_clip_no_capacity_check"],"Dimension 3 and more, arbitrary arithmetic. In dimension 2 the code indexes out of bounds, and a full buffer is written past its end: both proved with witnesses.")
c("C49","proved",["C49_rNd_clip_intersection","C49_rNd_clip_intersection_room","C49_rNd_clip_intersection_facets","C49_rNd_clip_generic","C49_hull_is_intersection"],"Dimension 3 and more. Special position over the reals (limits of simple convex polytopes), general position over ordered fields. A buffer that is too small is an explicit outcome; C(F+k,D) vertices are enough for F facets and k planes.")
c("C50","proved",["C50_rNd_init_simplex_convex","C50_rNd_init_box_convex","C50_rNd_init_simplex_limit","C50_rNd_init_box_limit","C50_rNd_box_clip"],"Every dimension; degenerate points and boxes included over the reals.")
c("C51","proved",["C51_rNd_split_sides"],"Dimension 3 and more, over the reals, with room in the buffer.")
c("C52","proved",["C52_rNd_reduce_volume","C52_rNd_box_volume","C52_rNd_simplex_volume","C52_rNd_clip_reduce","C52_rNd_reduce_zero_edge","C52_rNd_clip_reduce_nan"],"Every dimension, real arithmetic with exact square roots. Edges of length 0, which clipping in special position produces, give NaN; that is proved as well.")
c("C53","proved",["C53_rNd_voxelize_volume","C53_rNd_voxelize_cells"],"Dimension 3 and more, real arithmetic, general position with respect to the grid (in special position rNd_reduce can divide by 0, C52).")
c("C54","partial",["C54_rNd_is_good_partial","C54_rNd_is_good_test","C54_balinski","C54_convex_accepted","C54_box_accepted","C54_clip_accepted","C54_ring_overflow","C54_not_claim_overflow","C54_not_claim_oneway","C54_not_claim_negative"],"Full claim C54_claim is false: stack overflow, one-way links, negative links (witnesses). Proved in every dimension for mutual links and (D-1)*nverts+1 <= RND_MAX_VERTS; exact test proved for one-way links too; convex polytopes proved to be accepted.")
c("C55","proved",["C55_r3d_init_poly","C55_r3d_init_poly_full"],"General branch of r3d_init_poly. Valid3 needs F.Polytopal; the capacity needed is one vertex per corner. C55_r3d_init_poly_full: on failure the poly keeps a nonzero nverts with stale vertices.")
c("C56","proved",["C56_r3d_init_poly_convex","C56_convex_moments","C56_convex_voxelize"],"Composition of C34/C55, C25, C29 and C37; the new part is that the poly built from the faces of a convex polyhedron covers the intersection of the face half-spaces exactly once. Exact arithmetic; convexity is stated by planes, positions and turns of the corners (ConvexFaces), the combinatorics by Polytopal and Fan.")
c("C57","proved",["C57_convex_two_sided","C57_r2d_clip_room","C57_r2d_split_room","C57_r2d_rasterize_room","C57_convex_moments","C57_convex_rasterize","C57_r2d_clip_sharp"],"Total correctness for convex polygons in exact arithmetic; complements the negative results of C08. The property TwoSided (one cycle, no line cuts it more than twice) is kept by clip and split, so the calls compose.")
c("C58","proved",["C58_r3d_clip_room","C58_r3d_split_room","C58_r3d_voxelize_room","C58_r3d_init_tet_limit","C58_r3d_init_box_limit","C58_faces_limit","C58_convex_moments","C58_convex_voxelize","C58_box_moments","C58_box_voxelize","C58_tet_moments","C58_tet_voxelize","C58_box_default","C58_tet_any_grid","C58_box_any_grid"],"Total correctness for simple convex polyhedra in exact arithmetic. The property Limit3 (limit of simple convex polyhedra) is kept by clip and split, so the calls compose. Face lists with more than three faces at a vertex are excluded by Trivalent.")
c("C59","proved",["C59_r2d_clip_float","C59_r3d_clip_float"],"Standard model of floating-point arithmetic: relative error at most u per operation, no overflow, underflow or contraction to FMA. Rounding to nearest with 53 binary digits is an instance (binaryRounding 53).")
c("C60","proved",["C60_r2d_reduce_float","C60_r2d_reduce_shift_float"],"Standard model of floating-point arithmetic, as in C59; pow is modelled as repeated multiplication. Both variants of SHIFT_POLY.")
c("C61","proved",["C61_r3d_reduce_float","C61_r3d_reduce_shift_float","C61_reference"],"Standard model of floating-point arithmetic, as in C59. Faces need not be flat after rounding; the reference value is then the sum over fan tetrahedra of C29, which is the integral if they are flat (C61_reference).")
c("C62","proved",["C62_r2d_clip_region_float","C62_r2d_clip_moment_float","C62_r2d_clip_reduce_float","C62_r2d_clip_reduce_shift_float"],"Standard model of floating-point arithmetic, as in C59. The lines must have a non-zero normal. Coordinates of the lines count as exact: the bound is relative to the lines as given in floating point.")
c("C63","proved",["C63_r3d_clip_region_float","C63_r3d_clip_moment_float","C63_r3d_clip_reduce_float","C63_r3d_clip_reduce_shift_float","C63_fanCover_flat","C63_moment_flat"],"Standard model of floating-point arithmetic, as in C59. The planes must have a non-zero normal and count as exact. Faces that are not flat are replaced by fans of triangles from one of their vertices, any of them; with flat faces the reference is the integral of C29.")
c("C64","proved",["C64_r3d_split_float","C64_r3d_voxelize_float","C64_r3d_voxelize_shift_float"],"Standard model of floating-point arithmetic, as in C59; the spacing of the grid must be positive; the conversion of grid indices to floating point rounds too. Polyhedra for which a buffer overflows are excluded by the hypothesis that the routine returns (C58, C38 say when it does). The result of the final addition to the grid is rounded once, so the bound has a relative term.")
c("C65","proved",["C65_r2d_split_float","C65_r2d_rasterize_float","C65_r2d_rasterize_shift_float"],"Standard model of floating-point arithmetic, as in C59; the spacing of the grid must be positive. Nothing is assumed about the polygon except its links; the line of r2d_split must have a non-zero normal. The side that out_pos receives is the one of C07. Polygons for which a buffer overflows are excluded by the hypothesis that the routine returns (C06, C20 say when it does).")
c("C66","proved",["C66_r2d_rasterize_in_range","C66_r3d_voxelize_in_range","C66_rNd_voxelize_in_range","C66_r2d_rasterize_overflow","C66_r3d_voxelize_overflow","C66_rNd_voxelize_overflow","C66_r3d_voxelize_512_overflow","C66_get_ibox_in_range","C66_get_ibox_empty","C66_clamp_ibox_in_range"],"Checked are the expressions whose value depends on the size of the grid or the order; loop counters and vertex indices are bounded by the buffer sizes. The library log2 may have an error of 2^-33. The size of the stack array in bytes is not checked. The overflow theorems are for exact arithmetic over an ordered field, the in-range theorems for any arithmetic.")
c("C67","proved",["C67_rasterize_quad","C67_order_oob","C67_never_returns"],"Exact arithmetic; 32-bit overflow of 1+3*i+3*i*i is not modelled. The negative half (never returns) is part of the claim.")
c("C68","proved",["C68_rasterize_tree","C68_tree_same","C68_stack_128","C68_no_columns_oob","C68_never_returns"],"Exact arithmetic; in floating point the corner tests of a node and of its cells could disagree.")
c("C69","proved",["C69_r3d_vertex_count","C69_r3d_clip_never_full","C69_r3d_clip_512","C69_r3d_split_never_full","C69_r3d_voxelize_safe","C69_r3d_voxelize_512"],"Exact arithmetic (the real numbers); with rounding the graph stays valid (C23) but need not be that of a convex polyhedron.")
c("C70","proved",["C70_voxelize_tet","C70_order_oob"],"Exact arithmetic (the real numbers); 32-bit overflow of 1+3*i+3*i*i is not modelled.")
c("C71","partial",["C71_tree_partial","C71_tree_wrong","C71_tree_mirror","C71_right_order","C71_stack_128","C71_tet_half"],"False of the code (the corner orientations of a cut cell are given to the wrong vertices): negation proved with a witness over R, and a tetrahedron whose volume comes out halved over Q. Proved: cells that are not cut are right whenever the call returns; with the right order of the corners the tree version equals the plain one.")
c("C72","proved",["C72_tet_voxelize","C72_tet_conserves","C72_tet_reversed","C72_r3du_orient","C72_r2du_orient","C72_r2du_faces","C72_quad_rasterize","C72_quad_clockwise"],"Exact arithmetic; the square root only has to be positive on positive numbers and the 1e-299 of the norm macros non-negative. When the rasterizer returns is the subject of C67.")
c("C73","proved",["C73_rNd_clip_float","C73_rNd_clip_one_plane","C73_rNd_split_float"],"Standard model of floating-point arithmetic without overflow and underflow. (a) is conditional on the call returning, which rNd_clip need not do after several planes (C49).")
c("C74","proved",["C74_rNd_reduce_unstable"],"Exact arithmetic over R; the claim is that a stability property one would expect fails.")
c("C75","proved",["C75_r3d_brep_memory","C75_heap"],"malloc and realloc always succeed; realloc always moves.")
c("C76","partial",["C76_degenerate","C76_perturbed","C76_nondegenerate_partial","C76_nondegenerate_libm_partial","C76_normal_zero","C76_zero_normal","C76_thru","C76_rand_tet"],"The nondegenerate test does not check for a zero normal vector and fails if there is one (C76_zero_normal); the other two pass for all random numbers.")
c("C77","partial",["C77_degenerate","C77_perturbed","C77_nondegenerate_partial","C77_nondegenerate_libm_partial","C77_zero_normal","C77_random_verts_partial","C77_thru","C77_get_centroid_2d","C77_thru_cent_2d_misses","C77_rand_tri"],"get_centroid_2d is not the mean of the vertices (C77_thru_cent_2d_misses), and the nondegenerate test fails for a zero normal vector (C77_zero_normal). Open: whether 256 vertices are enough for test_random_verts.")
c("C78","proved",["C78_r3d_split_input","C78_r3d_split_input_changed","C78_r3d_split_input_solid","C78_r2d_split_input","C78_r2d_split_input_winding","C78_r2d_split_input_moments","C78_r2d_comparison_blind","C78_r3d_split_input_moments","C78_r3d_comparison_blind","C78_split_tets","C78_split_tris","C78_r3d_split_input_not_const","C78_r2d_split_input_not_const"],"The header documents inpolys as [in]; the code overwrites it (C78_r3d_split_input_not_const, C78_r2d_split_input_not_const).")
c("C79","proved",["C79_r3d_box_moments","C79_r2d_box_moments","C79_moments_3d","C79_moments_2d","C79_voxelization","C79_rasterization","C79_libm","C79_calloc_size","C79_voxelization_blind","C79_rasterization_blind","C79_moments_can_fail"],"Exact arithmetic. The tests do not notice a wrong index box (C79_voxelization_blind, C79_rasterization_blind).")
c("C80","proved",["C80_zigzag_shape","C80_zigzag_nonconvex","C80_split_nonconvex","C80_planes_bisect","C80_split_any","C80_can_fail"],"Exact arithmetic.")
c("C81","proved",["C81_tet_tet","C81_tet_tet_symm","C81_tri_tri","C81_tet_tet_trial","C81_tet_tet_timing","C81_tri_tri_trial","C81_tri_tri_timing"],"Exact arithmetic.")
c("C82","partial",["C82_moments","C82_split_convex","C82_split_partial","C82_recursive_partial","C82_nonconvex_fails","C82_nan_passes","C82_split_through_vertices"],"Exact arithmetic. For planes through a vertex only an instance is proved (C82_split_through_vertices); the recursive test is modelled up to the first such plane (C82_recursive_partial).")
c("C83","partial",["C83_voxelize_and_check","C83_voxelization_partial"],"Exact arithmetic, general position with respect to the grid. In special position rNd_reduce can divide 0 by 0 (C52); that case is not covered.")
with open('/verif/MANIFEST.json','w') as f:
    json.dump({"claims":C},f,indent=1); f.write("\n")
