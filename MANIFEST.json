{
 "claims": [
  {
   "property": "C01",
   "status": "proved",
   "theorems": [
    "R3D.C01_r2d_clip_linked",
    "R3D.C01_r2d_clip_safe"
   ],
   "note": "Arbitrary (lawless) arithmetic; the only fault is running out of buffer."
  },
  {
   "property": "C02",
   "status": "proved",
   "theorems": [
    "R3D.C02_r2d_clip_inside"
   ],
   "note": "Exact arithmetic over any ordered field."
  },
  {
   "property": "C03",
   "status": "proved",
   "theorems": [
    "R3D.C03_r2d_clip_intersection"
   ],
   "note": "Winding numbers, any ordered field, any doubly linked polygon."
  },
  {
   "property": "C04",
   "status": "proved",
   "theorems": [
    "R3D.C04_r2d_clip_no_planes",
    "R3D.C04_r2d_clip_empty",
    "R3D.C04_r2d_clip_inside_unchanged",
    "R3D.C04_r2d_clip_outside_empty"
   ],
   "note": "The vertex buffer is returned unchanged, not just equivalent."
  },
  {
   "property": "C05",
   "status": "proved",
   "theorems": [
    "R3D.C05_r2d_clip_partition",
    "R3D.C05_zero_plane"
   ],
   "note": "Any ordered field, any order, both SHIFT_POLY variants; the plane 0=0 is excluded, and shown to need exclusion."
  },
  {
   "property": "C06",
   "status": "proved",
   "theorems": [
    "R3D.C06_r2d_split_linked",
    "R3D.C06_r2d_split_safe",
    "R3D.C06_r2d_split_parts",
    "R3D.C06_r2d_split_moments",
    "R3D.C06_r2d_split_onesided"
   ],
   "note": "Links with arbitrary arithmetic; sides, coverage, moments and pass-through over any ordered field. Which output gets which side is C07."
  },
  {
   "property": "C07",
   "status": "partial",
   "theorems": [
    "R3D.C07_r2d_split_pos_false",
    "R3D.C07_r2d_split_sides_partial"
   ],
   "note": "The documented side assignment is false of the code (sdists are negated): negation proved with a witness; what holds is the swapped assignment."
  },
  {
   "property": "C08",
   "status": "partial",
   "theorems": [
    "R3D.C08_r2d_clip_false",
    "R3D.C08_r2d_split_false",
    "R3D.C08_r2d_clip_full_overflows",
    "R3D.C08_r2d_clip_room_partial",
    "R3D.C08_r2d_split_room_partial"
   ],
   "note": "False of the code (no capacity check): negation proved with a 256-vertex witness; sufficient room conditions proved."
  },
  {
   "property": "C09",
   "status": "proved",
   "theorems": [
    "R3D.C09_r2d_reduce_exact",
    "R3D.C09_r2d_reduce_empty"
   ],
   "note": "Lebesgue integral over R^2 of winding number times monomial; every order; both SHIFT_POLY variants."
  },
  {
   "property": "C10",
   "status": "proved",
   "theorems": [
    "R3D.C10_r2d_shift",
    "R3D.C10_r2d_shift_moments"
   ],
   "note": "Any field of characteristic 0."
  },
  {
   "property": "C11",
   "status": "proved",
   "theorems": [
    "R3D.C11_r2d_translate",
    "R3D.C11_r2d_scale",
    "R3D.C11_r2d_shear",
    "R3D.C11_r2d_affine",
    "R3D.C11_r2d_scale_moments",
    "R3D.C11_r2d_translate_moments",
    "R3D.C11_r2d_affine_area",
    "R3D.C11_r2d_shear_area"
   ],
   "note": "Positions with arbitrary arithmetic, effect on moments over any field of characteristic 0."
  },
  {
   "property": "C12",
   "status": "partial",
   "theorems": [
    "R3D.C12_r2d_rotate_false",
    "R3D.C12_r2d_rotate_partial",
    "R3D.C12_r2d_rotate_zero_collapses"
   ],
   "note": "False of the code (pos.x assigned twice): negation proved over R; what is computed instead is proved, and that the rotation by 0 collapses every polygon."
  },
  {
   "property": "C13",
   "status": "partial",
   "theorems": [
    "R3D.C13_r2d_is_good_false",
    "R3D.C13_r2d_is_good_negative_oob",
    "R3D.C13_r2d_is_good_partial",
    "R3D.C13_r2d_is_good_accepts",
    "R3D.C13_r2d_is_good_linked"
   ],
   "note": "False as documented (self-pointing vertices accepted): negation proved; exact characterisation for polys without self-pointers and negative links."
  },
  {
   "property": "C14",
   "status": "proved",
   "theorems": [
    "R3D.C14_r2d_init_box",
    "R3D.C14_r2d_init_poly",
    "R3D.C14_r2d_init_box_winding",
    "R3D.C14_r2d_init_box_area",
    "R3D.C14_r2d_init_poly_area"
   ],
   "note": "Links and positions with arbitrary arithmetic; covered region over ordered fields; areas over fields of characteristic 0."
  },
  {
   "property": "C15",
   "status": "proved",
   "theorems": [
    "R3D.C15_r2d_poly_faces",
    "R3D.C15_r2d_poly_faces_unit"
   ],
   "note": "Any ordered field and any square root that is positive on positives."
  },
  {
   "property": "C16",
   "status": "partial",
   "theorems": [
    "R3D.C16_r2d_box_faces_false",
    "R3D.C16_r2d_box_faces_partial",
    "R3D.C16_r2d_box_faces_origin_partial",
    "R3D.C16_r2d_box_faces_wrong"
   ],
   "note": "False of the code (sign of d for the lower sides): negation proved; what the planes describe is proved."
  },
  {
   "property": "C17",
   "status": "proved",
   "theorems": [
    "R3D.C17_r2d_orient_swap",
    "R3D.C17_r2d_orient_translate",
    "R3D.C17_r2d_orient_reduce",
    "R3D.C17_r2d_orient_pos",
    "R3D.C17_r2d_orient_area"
   ],
   "note": "Any field; the area statement over R."
  },
  {
   "property": "C18",
   "status": "proved",
   "theorems": [
    "R3D.C18_r2d_rasterize_conserves",
    "R3D.C18_r2d_rasterize_nothing"
   ],
   "note": "exact arithmetic over any ordered field; any polygon, inside the box or not"
  },
  {
   "property": "C19",
   "status": "proved",
   "theorems": [
    "R3D.C19_r2d_rasterize_region",
    "R3D.C19_r2d_rasterize_exact"
   ],
   "note": "over the reals; the region theorem says what happens to the part outside the index box: border cells collect it"
  },
  {
   "property": "C20",
   "status": "proved",
   "theorems": [
    "R3D.C20_r2d_rasterize_in_bounds",
    "R3D.C20_r2d_rasterize_safe",
    "R3D.C20_r2d_grid_slots"
   ],
   "note": "whatever the arithmetic; log2 taken as exact (C66 removes this); the split has no capacity check, so a piece that does not fit the vertex buffer is the only failure"
  },
  {
   "property": "C21",
   "status": "proved",
   "theorems": [
    "R3D.C21_r2d_get_ibox_minimal",
    "R3D.C21_r2d_get_ibox_not_minimal_beyond"
   ],
   "note": "coordinates up to 1e30, beyond which minimality is false; conversion to int assumed in range"
  },
  {
   "property": "C22",
   "status": "proved",
   "theorems": [
    "R3D.C22_r2d_clamp_ibox",
    "R3D.C22_r2d_clamp_disjoint",
    "R3D.C22_r2d_clamp_inside",
    "R3D.C22_r2d_clamp_stays_in_box"
   ],
   "note": "coverage statement for points off the clamp lines"
  },
  {
   "property": "C23",
   "status": "proved",
   "theorems": [
    "R3D.C23_r3d_clip_mutual",
    "R3D.C23_r3d_clip_valid"
   ],
   "note": "Arbitrary (lawless) arithmetic. One plane for any three-distinct-mutual-neighbours graph; any list of planes for graphs where the two sides of an edge differ and two faces share at most one edge."
  },
  {
   "property": "C24",
   "status": "proved",
   "theorems": [
    "R3D.C24_r3d_clip_inside",
    "R3D.C24_r3d_clip_inside_one"
   ],
   "note": "Exact arithmetic over any ordered field."
  },
  {
   "property": "C25",
   "status": "proved",
   "theorems": [
    "R3D.C25_r3d_clip_intersection"
   ],
   "note": "Cover numbers, any ordered field, any polyhedron with valid graph and flat faces (convex or not), any list of planes."
  },
  {
   "property": "C26",
   "status": "partial",
   "theorems": [
    "R3D.C26_r3d_clip_return_partial",
    "R3D.C26_r3d_split_return_partial",
    "R3D.C26_r3d_clip_failure_corrupts",
    "R3D.C26_r3d_split_failure_corrupts"
   ],
   "note": "In-bounds and return codes proved; the part 'on failure the polyhedron is untouched' is false of the code: negation proved with witnesses."
  },
  {
   "property": "C27",
   "status": "proved",
   "theorems": [
    "R3D.C27_r3d_clip_partition",
    "R3D.C27_r3d_split_partition"
   ],
   "note": "Over R; every closed polyhedron with flat faces, every plane except 0=0 (for the clips; none excluded for the split), every order, both SHIFT_POLY variants."
  },
  {
   "property": "C28",
   "status": "proved",
   "theorems": [
    "R3D.C28_r3d_split_parts",
    "R3D.C28_r3d_split_onesided"
   ],
   "note": "Graphs, sides, hull, cover numbers at every point; one-sided inputs are copied and the other output zeroed."
  },
  {
   "property": "C29",
   "status": "proved",
   "theorems": [
    "R3D.C29_r3d_reduce_exact",
    "R3D.C29_r3d_reduce_faces",
    "R3D.C29_r3d_reduce_empty"
   ],
   "note": "Lebesgue integral over R^3 of cover number times monomial; every order; both SHIFT_POLY variants. For faces that are not flat: the sum over the sides of all faces, each once."
  },
  {
   "property": "C30",
   "status": "proved",
   "theorems": [
    "R3D.C30_r3d_shift"
   ],
   "note": "Any field of characteristic 0, faces flat or not."
  },
  {
   "property": "C31",
   "status": "proved",
   "theorems": [
    "R3D.C31_r3d_rotate",
    "R3D.C31_r3d_translate",
    "R3D.C31_r3d_scale",
    "R3D.C31_r3d_shear",
    "R3D.C31_r3d_affine",
    "R3D.C31_r3d_rotate_isometry",
    "R3D.C31_moved_valid"
   ],
   "note": "Positions with arbitrary arithmetic; isometry over R."
  },
  {
   "property": "C32",
   "status": "partial",
   "theorems": [
    "R3D.C32_r3d_is_good_partial",
    "R3D.C32_r3d_is_good_test",
    "R3D.C32_valid_accepted",
    "R3D.C32_clip_accepted",
    "R3D.C32_prism_overflow",
    "R3D.C32_not_claim_overflow",
    "R3D.C32_not_claim_oneway",
    "R3D.C32_not_claim_negative",
    "R3D.C32_accepts_loops",
    "R3D.C32_accepts_twisted"
   ],
   "note": "Full claim C32_claim is false: stack overflow for valid prisms filling half of the buffer, one-way links, negative links. Proved for mutual links and 2*nverts+1 <= R3D_MAX_VERTS; exact test proved for one-way links too."
  },
  {
   "property": "C33",
   "status": "proved",
   "theorems": [
    "R3D.C33_r3d_init_tet",
    "R3D.C33_r3d_init_box",
    "R3D.C33_r3d_init_tet_outward",
    "R3D.C33_r3d_init_box_outward",
    "R3D.C33_r3d_init_tet_volume",
    "R3D.C33_r3d_init_box_volume",
    "R3D.C33_r3d_init_tet_integral"
   ],
   "note": "Graphs in any arithmetic, outward faces over ordered fields, volumes over fields of characteristic 0."
  },
  {
   "property": "C35",
   "status": "partial",
   "theorems": [
    "R3D.C35_r3d_box_faces",
    "R3D.C35_r3d_box_faces_dist",
    "R3D.C35_r3d_tet_faces",
    "R3D.C35_r3d_tet_faces_inside",
    "R3D.C35_r3d_poly_face_partial",
    "R3D.C35_r3d_poly_face_convex",
    "R3D.C35_r3d_poly_faces_loop",
    "R3D.C35_r3d_poly_faces_outward",
    "R3D.C35_r3d_poly_face_reflex"
   ],
   "note": "Boxes and tetrahedra proved in full. For r3d_poly_faces_from_verts the statement is false (outward planes for the order r3d_init_poly needs; a face with a reflex corner can be inverted): witnesses proved, convex faces proved."
  },
  {
   "property": "C36",
   "status": "proved",
   "theorems": [
    "R3D.C36_r3d_orient_eq",
    "R3D.C36_r3d_orient_swap",
    "R3D.C36_r3d_orient_perm",
    "R3D.C36_r3d_orient_translate",
    "R3D.C36_r3d_orient_reduce"
   ],
   "note": "All permutations; any field (characteristic 0 for r3d_reduce)."
  },
  {
   "property": "C37",
   "status": "proved",
   "theorems": [
    "R3D.C37_r3d_voxelize_conserves",
    "R3D.C37_r3d_voxelize_nothing",
    "R3D.C37_r3d_voxelize_region",
    "R3D.C37_r3d_voxelize_exact"
   ],
   "note": "Over R; any closed polyhedron with flat faces, inside the box or not; also exact per cell. Border cells collect what is outside the box."
  },
  {
   "property": "C38",
   "status": "proved",
   "theorems": [
    "R3D.C38_r3d_voxelize_in_bounds",
    "R3D.C38_r3d_voxelize_safe",
    "R3D.C38_r3d_grid_slots"
   ],
   "note": "Whatever the arithmetic; log2 taken as exact (C66 removes this); the split has no capacity check, so a piece that does not fit the vertex buffer is the only failure."
  },
  {
   "property": "C39",
   "status": "partial",
   "theorems": [
    "R3D.C39_r3d_get_ibox_minimal",
    "R3D.C39_r3d_get_ibox_not_minimal_beyond",
    "R3D.C39_r3d_clamp_ibox_partial",
    "R3D.C39_r3d_clamp_box",
    "R3D.C39_r3d_clamp_disjoint",
    "R3D.C39_r3d_clamp_inside",
    "R3D.C39_r3d_clamp_stays_in_box_partial",
    "R3D.C39_r3d_clamp_full"
   ],
   "note": "Index box and get_ibox (coordinates up to 1e30) proved. The polyhedron is clipped only if r3d_clip has room: its return value is ignored, witness proved."
  },
  {
   "property": "C34",
   "status": "proved",
   "theorems": [
    "R3D.C34_r3d_init_poly",
    "R3D.C34_faces_valid",
    "R3D.C34_r3d_init_poly_full",
    "R3D.C34_r3d_init_poly_invalid"
   ],
   "note": "Closed oriented face lists with three corners per vertex that fit the buffer; faces listed and faces of the graph correspond one to one, in opposite direction."
  },
  {
   "property": "C40",
   "status": "partial",
   "theorems": [
    "R3D.C40_r3d_init_brep_partial",
    "R3D.C40_indices",
    "R3D.C40_no_coincident",
    "R3D.C40_rep_pos",
    "R3D.C40_roundtrip",
    "R3D.C40_r3d_init_brep_empty",
    "R3D.C40_r3d_init_brep_full"
   ],
   "note": "Valid polyhedra with 0 < nverts < R3D_MAX_VERTS, any coincidence pattern, any number of components. False for the empty poly and for every full buffer: both proved to be out of bounds."
  },
  {
   "property": "C41",
   "status": "proved",
   "theorems": [
    "R3D.C41_rNd_det",
    "R3D.C41_rNd_orient",
    "R3D.C41_volume",
    "R3D.C41_swap",
    "R3D.C41_translate"
   ],
   "note": "Every dimension D >= 1: rNd_det is the determinant, rNd_orient D! times the signed volume of the simplex (volume over the reals)."
  },
  {
   "property": "C42",
   "status": "proved",
   "theorems": [
    "R3D.C42_rNd_init_simplex",
    "R3D.C42_rNd_init_box"
   ],
   "note": "Every dimension and arithmetic, buffers of at least D+1 and 2^D vertices. Also the numbering of the 2-faces."
  },
  {
   "property": "C43",
   "status": "partial",
   "theorems": [
    "R3D.C43_rNd_affine_computes",
    "R3D.C43_affine_matrix_divides_by_zero",
    "R3D.C43_rNd_affine_partial",
    "R3D.C43_rNd_affine_false",
    "R3D.C43_identity"
   ],
   "note": "False of the code: = where += is needed, and mat[D][D] missing from the divisor. Negation proved with a witness; what is computed instead is proved for all matrices."
  },
  {
   "property": "C46",
   "status": "proved",
   "theorems": [
    "R3D.C46_rNd_translate",
    "R3D.C46_rNd_scale",
    "R3D.C46_rNd_shear",
    "R3D.C46_rNd_shear_bad_axis",
    "R3D.C46_rNd_rotate",
    "R3D.C46_rotate_lengths",
    "R3D.C46_rotate_same_axis"
   ],
   "note": "Every dimension. Rotation for ax1 != ax2; with equal axes it is not a rotation (proved)."
  },
  {
   "property": "C44",
   "status": "partial",
   "theorems": [
    "R3D.C44_rNd_clamp_overflow",
    "R3D.C44_rNd_clamp_false",
    "R3D.C44_rNd_clamp_partial",
    "R3D.C44_rNd_clamp_six_partial",
    "R3D.C44_rNd_clamp_disjoint"
   ],
   "note": "False for RND_DIM = 4: boxfaces has 6 elements, so an index box sticking out on more than six sides overruns it (proved for all of them). Proved for dimension at most 3 and for at most six sides."
  },
  {
   "property": "C45",
   "status": "proved",
   "theorems": [
    "R3D.C45_rNd_voxelize_in_bounds",
    "R3D.C45_rNd_grid_slots"
   ],
   "note": "Every dimension, poly and arithmetic; log2 taken as exact (C66 removes this). The only failure is a fault inside rNd_split or rNd_reduce on one of the pieces."
  },
  {
   "property": "C47",
   "status": "proved",
   "theorems": [
    "R3D.C47_rNd_get_ibox_minimal",
    "R3D.C47_rNd_get_ibox_not_minimal_beyond"
   ],
   "note": "Coordinates up to 1e30, beyond which minimality is false; conversion to int assumed in range."
  },
  {
   "property": "C48",
   "status": "partial",
   "theorems": [
    "R3D.C48_rNd_clip_simple",
    "R3D.C48_rNd_clip_dim2_fails",
    "R3D.C48_rNd_clip_no_capacity_check"
   ],
   "note": "Dimension 3 and more, arbitrary arithmetic. In dimension 2 the code indexes out of bounds, and a full buffer is written past its end: both proved with witnesses."
  },
  {
   "property": "C49",
   "status": "proved",
   "theorems": [
    "R3D.C49_rNd_clip_intersection",
    "R3D.C49_rNd_clip_intersection_room",
    "R3D.C49_rNd_clip_intersection_facets",
    "R3D.C49_rNd_clip_generic",
    "R3D.C49_hull_is_intersection"
   ],
   "note": "Dimension 3 and more. Special position over the reals (limits of simple convex polytopes), general position over ordered fields. A buffer that is too small is an explicit outcome; C(F+k,D) vertices are enough for F facets and k planes."
  },
  {
   "property": "C50",
   "status": "proved",
   "theorems": [
    "R3D.C50_rNd_init_simplex_convex",
    "R3D.C50_rNd_init_box_convex",
    "R3D.C50_rNd_init_simplex_limit",
    "R3D.C50_rNd_init_box_limit",
    "R3D.C50_rNd_box_clip"
   ],
   "note": "Every dimension; degenerate points and boxes included over the reals."
  },
  {
   "property": "C51",
   "status": "proved",
   "theorems": [
    "R3D.C51_rNd_split_sides"
   ],
   "note": "Dimension 3 and more, over the reals, with room in the buffer."
  },
  {
   "property": "C52",
   "status": "proved",
   "theorems": [
    "R3D.C52_rNd_reduce_volume",
    "R3D.C52_rNd_box_volume",
    "R3D.C52_rNd_simplex_volume",
    "R3D.C52_rNd_clip_reduce",
    "R3D.C52_rNd_reduce_zero_edge",
    "R3D.C52_rNd_clip_reduce_nan"
   ],
   "note": "Every dimension, real arithmetic with exact square roots. Edges of length 0, which clipping in special position produces, give NaN; that is proved as well."
  },
  {
   "property": "C53",
   "status": "proved",
   "theorems": [
    "R3D.C53_rNd_voxelize_volume",
    "R3D.C53_rNd_voxelize_cells"
   ],
   "note": "Dimension 3 and more, real arithmetic, general position with respect to the grid (in special position rNd_reduce can divide by 0, C52)."
  },
  {
   "property": "C54",
   "status": "partial",
   "theorems": [
    "R3D.C54_rNd_is_good_partial",
    "R3D.C54_rNd_is_good_test",
    "R3D.C54_balinski",
    "R3D.C54_convex_accepted",
    "R3D.C54_box_accepted",
    "R3D.C54_clip_accepted",
    "R3D.C54_ring_overflow",
    "R3D.C54_not_claim_overflow",
    "R3D.C54_not_claim_oneway",
    "R3D.C54_not_claim_negative"
   ],
   "note": "Full claim C54_claim is false: stack overflow, one-way links, negative links (witnesses). Proved in every dimension for mutual links and (D-1)*nverts+1 <= RND_MAX_VERTS; exact test proved for one-way links too; convex polytopes proved to be accepted."
  },
  {
   "property": "C55",
   "status": "proved",
   "theorems": [
    "R3D.C55_r3d_init_poly",
    "R3D.C55_r3d_init_poly_full"
   ],
   "note": "General branch of r3d_init_poly. Valid3 needs F.Polytopal; the capacity needed is one vertex per corner. C55_r3d_init_poly_full: on failure the poly keeps a nonzero nverts with stale vertices."
  },
  {
   "property": "C56",
   "status": "proved",
   "theorems": [
    "R3D.C56_r3d_init_poly_convex",
    "R3D.C56_convex_moments",
    "R3D.C56_convex_voxelize"
   ],
   "note": "Composition of C34/C55, C25, C29 and C37; the new part is that the poly built from the faces of a convex polyhedron covers the intersection of the face half-spaces exactly once. Exact arithmetic; convexity is stated by planes, positions and turns of the corners (ConvexFaces), the combinatorics by Polytopal and Fan."
  },
  {
   "property": "C57",
   "status": "proved",
   "theorems": [
    "R3D.C57_convex_two_sided",
    "R3D.C57_r2d_clip_room",
    "R3D.C57_r2d_split_room",
    "R3D.C57_r2d_rasterize_room",
    "R3D.C57_convex_moments",
    "R3D.C57_convex_rasterize",
    "R3D.C57_r2d_clip_sharp"
   ],
   "note": "Total correctness for convex polygons in exact arithmetic; complements the negative results of C08. The property TwoSided (one cycle, no line cuts it more than twice) is kept by clip and split, so the calls compose."
  },
  {
   "property": "C58",
   "status": "proved",
   "theorems": [
    "R3D.C58_r3d_clip_room",
    "R3D.C58_r3d_split_room",
    "R3D.C58_r3d_voxelize_room",
    "R3D.C58_r3d_init_tet_limit",
    "R3D.C58_r3d_init_box_limit",
    "R3D.C58_faces_limit",
    "R3D.C58_convex_moments",
    "R3D.C58_convex_voxelize",
    "R3D.C58_box_moments",
    "R3D.C58_box_voxelize",
    "R3D.C58_tet_moments",
    "R3D.C58_tet_voxelize",
    "R3D.C58_box_default",
    "R3D.C58_tet_any_grid",
    "R3D.C58_box_any_grid"
   ],
   "note": "Total correctness for simple convex polyhedra in exact arithmetic. The property Limit3 (limit of simple convex polyhedra) is kept by clip and split, so the calls compose. Face lists with more than three faces at a vertex are excluded by Trivalent."
  },
  {
   "property": "C59",
   "status": "proved",
   "theorems": [
    "R3D.C59_r2d_clip_float",
    "R3D.C59_r3d_clip_float"
   ],
   "note": "Standard model of floating-point arithmetic: relative error at most u per operation, no overflow, underflow or contraction to FMA. Rounding to nearest with 53 binary digits is an instance (binaryRounding 53)."
  },
  {
   "property": "C60",
   "status": "proved",
   "theorems": [
    "R3D.C60_r2d_reduce_float",
    "R3D.C60_r2d_reduce_shift_float"
   ],
   "note": "Standard model of floating-point arithmetic, as in C59; pow is modelled as repeated multiplication. Both variants of SHIFT_POLY."
  },
  {
   "property": "C61",
   "status": "proved",
   "theorems": [
    "R3D.C61_r3d_reduce_float",
    "R3D.C61_r3d_reduce_shift_float",
    "R3D.C61_reference"
   ],
   "note": "Standard model of floating-point arithmetic, as in C59. Faces need not be flat after rounding; the reference value is then the sum over fan tetrahedra of C29, which is the integral if they are flat (C61_reference)."
  },
  {
   "property": "C62",
   "status": "proved",
   "theorems": [
    "R3D.C62_r2d_clip_region_float",
    "R3D.C62_r2d_clip_moment_float",
    "R3D.C62_r2d_clip_reduce_float",
    "R3D.C62_r2d_clip_reduce_shift_float"
   ],
   "note": "Standard model of floating-point arithmetic, as in C59. The lines must have a non-zero normal. Coordinates of the lines count as exact: the bound is relative to the lines as given in floating point."
  },
  {
   "property": "C63",
   "status": "proved",
   "theorems": [
    "R3D.C63_r3d_clip_region_float",
    "R3D.C63_r3d_clip_moment_float",
    "R3D.C63_r3d_clip_reduce_float",
    "R3D.C63_r3d_clip_reduce_shift_float",
    "R3D.C63_fanCover_flat",
    "R3D.C63_moment_flat"
   ],
   "note": "Standard model of floating-point arithmetic, as in C59. The planes must have a non-zero normal and count as exact. Faces that are not flat are replaced by fans of triangles from one of their vertices, any of them; with flat faces the reference is the integral of C29."
  },
  {
   "property": "C64",
   "status": "proved",
   "theorems": [
    "R3D.C64_r3d_split_float",
    "R3D.C64_r3d_voxelize_float",
    "R3D.C64_r3d_voxelize_shift_float"
   ],
   "note": "Standard model of floating-point arithmetic, as in C59; the spacing of the grid must be positive; the conversion of grid indices to floating point rounds too. Polyhedra for which a buffer overflows are excluded by the hypothesis that the routine returns (C58, C38 say when it does). The result of the final addition to the grid is rounded once, so the bound has a relative term."
  },
  {
   "property": "C65",
   "status": "proved",
   "theorems": [
    "R3D.C65_r2d_split_float",
    "R3D.C65_r2d_rasterize_float",
    "R3D.C65_r2d_rasterize_shift_float"
   ],
   "note": "Standard model of floating-point arithmetic, as in C59; the spacing of the grid must be positive. Nothing is assumed about the polygon except its links; the line of r2d_split must have a non-zero normal. The side that out_pos receives is the one of C07. Polygons for which a buffer overflows are excluded by the hypothesis that the routine returns (C06, C20 say when it does)."
  },
  {
   "property": "C66",
   "status": "proved",
   "theorems": [
    "R3D.C66_r2d_rasterize_in_range",
    "R3D.C66_r3d_voxelize_in_range",
    "R3D.C66_rNd_voxelize_in_range",
    "R3D.C66_r2d_rasterize_overflow",
    "R3D.C66_r3d_voxelize_overflow",
    "R3D.C66_rNd_voxelize_overflow",
    "R3D.C66_r3d_voxelize_512_overflow",
    "R3D.C66_get_ibox_in_range",
    "R3D.C66_get_ibox_empty",
    "R3D.C66_clamp_ibox_in_range"
   ],
   "note": "Checked are the expressions whose value depends on the size of the grid or the order; loop counters and vertex indices are bounded by the buffer sizes. The library log2 may have an error of 2^-33. The size of the stack array in bytes is not checked. The overflow theorems are for exact arithmetic over an ordered field, the in-range theorems for any arithmetic."
  },
  {
   "property": "C67",
   "status": "proved",
   "theorems": [
    "R3D.C67_rasterize_quad",
    "R3D.C67_order_oob",
    "R3D.C67_never_returns"
   ],
   "note": "Exact arithmetic; 32-bit overflow of 1+3*i+3*i*i is not modelled. The negative half (never returns) is part of the claim."
  },
  {
   "property": "C68",
   "status": "proved",
   "theorems": [
    "R3D.C68_rasterize_tree",
    "R3D.C68_tree_same",
    "R3D.C68_stack_128",
    "R3D.C68_no_columns_oob",
    "R3D.C68_never_returns"
   ],
   "note": "Exact arithmetic; in floating point the corner tests of a node and of its cells could disagree."
  },
  {
   "property": "C69",
   "status": "proved",
   "theorems": [
    "R3D.C69_r3d_vertex_count",
    "R3D.C69_r3d_clip_never_full",
    "R3D.C69_r3d_clip_512",
    "R3D.C69_r3d_split_never_full",
    "R3D.C69_r3d_voxelize_safe",
    "R3D.C69_r3d_voxelize_512"
   ],
   "note": "Exact arithmetic (the real numbers); with rounding the graph stays valid (C23) but need not be that of a convex polyhedron."
  },
  {
   "property": "C70",
   "status": "proved",
   "theorems": [
    "R3D.C70_voxelize_tet",
    "R3D.C70_order_oob"
   ],
   "note": "Exact arithmetic (the real numbers); 32-bit overflow of 1+3*i+3*i*i is not modelled."
  },
  {
   "property": "C71",
   "status": "partial",
   "theorems": [
    "R3D.C71_tree_partial",
    "R3D.C71_tree_wrong",
    "R3D.C71_tree_mirror",
    "R3D.C71_right_order",
    "R3D.C71_stack_128",
    "R3D.C71_tet_half"
   ],
   "note": "False of the code (the corner orientations of a cut cell are given to the wrong vertices): negation proved with a witness over R, and a tetrahedron whose volume comes out halved over Q. Proved: cells that are not cut are right whenever the call returns; with the right order of the corners the tree version equals the plain one."
  },
  {
   "property": "C72",
   "status": "proved",
   "theorems": [
    "R3D.C72_tet_voxelize",
    "R3D.C72_tet_conserves",
    "R3D.C72_tet_reversed",
    "R3D.C72_r3du_orient",
    "R3D.C72_r2du_orient",
    "R3D.C72_r2du_faces",
    "R3D.C72_quad_rasterize",
    "R3D.C72_quad_clockwise"
   ],
   "note": "Exact arithmetic; the square root only has to be positive on positive numbers and the 1e-299 of the norm macros non-negative. When the rasterizer returns is the subject of C67."
  },
  {
   "property": "C73",
   "status": "proved",
   "theorems": [
    "R3D.C73_rNd_clip_float",
    "R3D.C73_rNd_clip_one_plane",
    "R3D.C73_rNd_split_float"
   ],
   "note": "Standard model of floating-point arithmetic without overflow and underflow. (a) is conditional on the call returning, which rNd_clip need not do after several planes (C49)."
  },
  {
   "property": "C74",
   "status": "proved",
   "theorems": [
    "R3D.C74_rNd_reduce_unstable"
   ],
   "note": "Exact arithmetic over R; the claim is that a stability property one would expect fails."
  },
  {
   "property": "C75",
   "status": "proved",
   "theorems": [
    "R3D.C75_r3d_brep_memory",
    "R3D.C75_heap"
   ],
   "note": "malloc and realloc always succeed; realloc always moves."
  },
  {
   "property": "C76",
   "status": "partial",
   "theorems": [
    "R3D.C76_degenerate",
    "R3D.C76_perturbed",
    "R3D.C76_nondegenerate_partial",
    "R3D.C76_nondegenerate_libm_partial",
    "R3D.C76_normal_zero",
    "R3D.C76_zero_normal",
    "R3D.C76_thru",
    "R3D.C76_rand_tet"
   ],
   "note": "The nondegenerate test does not check for a zero normal vector and fails if there is one (C76_zero_normal); the other two pass for all random numbers."
  },
  {
   "property": "C77",
   "status": "partial",
   "theorems": [
    "R3D.C77_degenerate",
    "R3D.C77_perturbed",
    "R3D.C77_nondegenerate_partial",
    "R3D.C77_nondegenerate_libm_partial",
    "R3D.C77_zero_normal",
    "R3D.C77_random_verts_partial",
    "R3D.C77_thru",
    "R3D.C77_get_centroid_2d",
    "R3D.C77_thru_cent_2d_misses",
    "R3D.C77_rand_tri"
   ],
   "note": "get_centroid_2d is not the mean of the vertices (C77_thru_cent_2d_misses), and the nondegenerate test fails for a zero normal vector (C77_zero_normal). Open: whether 256 vertices are enough for test_random_verts."
  },
  {
   "property": "C78",
   "status": "proved",
   "theorems": [
    "R3D.C78_r3d_split_input",
    "R3D.C78_r3d_split_input_changed",
    "R3D.C78_r3d_split_input_solid",
    "R3D.C78_r2d_split_input",
    "R3D.C78_r2d_split_input_winding",
    "R3D.C78_r2d_split_input_moments",
    "R3D.C78_r2d_comparison_blind",
    "R3D.C78_r3d_split_input_moments",
    "R3D.C78_r3d_comparison_blind",
    "R3D.C78_split_tets",
    "R3D.C78_split_tris",
    "R3D.C78_r3d_split_input_not_const",
    "R3D.C78_r2d_split_input_not_const"
   ],
   "note": "The header documents inpolys as [in]; the code overwrites it (C78_r3d_split_input_not_const, C78_r2d_split_input_not_const)."
  },
  {
   "property": "C79",
   "status": "proved",
   "theorems": [
    "R3D.C79_r3d_box_moments",
    "R3D.C79_r2d_box_moments",
    "R3D.C79_moments_3d",
    "R3D.C79_moments_2d",
    "R3D.C79_voxelization",
    "R3D.C79_rasterization",
    "R3D.C79_libm",
    "R3D.C79_calloc_size",
    "R3D.C79_voxelization_blind",
    "R3D.C79_rasterization_blind",
    "R3D.C79_moments_can_fail"
   ],
   "note": "Exact arithmetic. The tests do not notice a wrong index box (C79_voxelization_blind, C79_rasterization_blind)."
  },
  {
   "property": "C80",
   "status": "proved",
   "theorems": [
    "R3D.C80_zigzag_shape",
    "R3D.C80_zigzag_nonconvex",
    "R3D.C80_split_nonconvex",
    "R3D.C80_planes_bisect",
    "R3D.C80_split_any",
    "R3D.C80_can_fail"
   ],
   "note": "Exact arithmetic."
  },
  {
   "property": "C81",
   "status": "proved",
   "theorems": [
    "R3D.C81_tet_tet",
    "R3D.C81_tet_tet_symm",
    "R3D.C81_tri_tri",
    "R3D.C81_tet_tet_trial",
    "R3D.C81_tet_tet_timing",
    "R3D.C81_tri_tri_trial",
    "R3D.C81_tri_tri_timing"
   ],
   "note": "Exact arithmetic."
  },
  {
   "property": "C82",
   "status": "partial",
   "theorems": [
    "R3D.C82_moments",
    "R3D.C82_split_convex",
    "R3D.C82_split_partial",
    "R3D.C82_recursive_partial",
    "R3D.C82_nonconvex_fails",
    "R3D.C82_nan_passes",
    "R3D.C82_split_through_vertices"
   ],
   "note": "Exact arithmetic. For planes through a vertex only an instance is proved (C82_split_through_vertices); the recursive test is modelled up to the first such plane (C82_recursive_partial)."
  },
  {
   "property": "C83",
   "status": "partial",
   "theorems": [
    "R3D.C83_voxelize_and_check",
    "R3D.C83_voxelization_partial"
   ],
   "note": "Exact arithmetic, general position with respect to the grid. In special position rNd_reduce can divide 0 by 0 (C52); that case is not covered."
  }
 ]
}
