{"id": "C01", "title": "r2d_clip keeps the polygon's links valid", "statement": "If every vertex of a polygon is doubly linked (next/prev indices in range and mutually inverse) and the vertex buffer has room, then r2d_clip terminates, never touches memory outside its buffers, and leaves every vertex doubly linked, whatever the rounding of the arithmetic does.", "quantifier": "every doubly linked polygon (any number of loops), every list of clip planes, every interpretation of +,*,/,< on coordinates (exact, floating, NaN)", "why_tests_cant": "Tests sample a few random triangles; a bad link or an endless relinking walk may need a specific pattern of clipped vertices.", "anchors": ["src/r2d.c:r2d_clip"]}
{"id": "C02", "title": "r2d_clip output lies in every half-plane", "statement": "After r2d_clip every remaining vertex satisfies n.x + d >= 0 for every plane it was clipped against, and is a convex combination of the input vertices.", "quantifier": "every polygon, every list of planes, exact arithmetic", "why_tests_cant": "Containment must hold for all planes at once, including later planes creating new vertices.", "anchors": ["src/r2d.c:r2d_clip"]}
{"id": "C03", "title": "r2d_clip computes the intersection", "statement": "A point off the clip lines is covered by the clipped polygon exactly as often (winding number) as by the input polygon if it is in all the half-planes, and not at all otherwise.", "quantifier": "every doubly linked polygon (convex, nonconvex, multiply connected, self-overlapping), every list of planes, every point off the clip lines, exact arithmetic", "why_tests_cant": "Needs every polygon shape and every point; tests only compare areas of random triangles.", "anchors": ["src/r2d.c:r2d_clip"]}
{"id": "C04", "title": "r2d_clip leaves inside polygons alone and empties outside ones", "statement": "Clipping against a plane that has the whole polygon on its non-negative side returns exactly the same polygon; if every vertex is on or below the plane and at least one strictly below, the result has zero vertices; clipping an empty polygon or against no planes changes nothing.", "quantifier": "every polygon and plane", "why_tests_cant": "Equality of the whole structure for all inputs.", "anchors": ["src/r2d.c:r2d_clip"]}
{"id": "C05", "title": "Complementary r2d clips partition the moments", "statement": "Clipping a polygon against a plane and against the reversed plane gives two polygons whose moments (r2d_reduce, any order) add up to the moments of the original.", "quantifier": "every doubly linked polygon, every plane (also through vertices and edges), every polynomial order", "why_tests_cant": "The unit test samples random planes at order 2 with a tolerance.", "anchors": ["src/r2d.c:r2d_clip", "src/r2d.c:r2d_reduce"]}
{"id": "C06", "title": "r2d_split splits without loss", "statement": "For each input polygon r2d_split produces two doubly linked polygons lying on opposite closed sides of the plane, whose coverage and moments add up to the input's; a polygon with no vertex strictly on one side is passed through unchanged and the other output is empty.", "quantifier": "every array of polygons, every plane", "why_tests_cant": "All plane/polygon configurations incl. degenerate ones, and all array positions.", "anchors": ["src/r2d.c:r2d_split"]}
{"id": "C07", "title": "r2d_split puts the positive side in out_pos", "statement": "out_pos receives the part of each polygon with n.x + d >= 0 and out_neg the part with n.x + d <= 0.", "quantifier": "every polygon and plane", "why_tests_cant": "The unit test only checks that the two parts add up, which is symmetric in the outputs.", "anchors": ["src/r2d.c:r2d_split", "src/r2d.h:r2d_split"]}
{"id": "C08", "title": "2D clipping stays inside the 256-vertex buffer", "statement": "r2d_clip and r2d_split never write beyond R2D_MAX_VERTS vertices for any polygon that fits in the buffer.", "quantifier": "every polygon with at most R2D_MAX_VERTS vertices, every plane", "why_tests_cant": "Needs the worst-case polygon; overflow is silent.", "anchors": ["src/r2d.c:r2d_clip", "src/r2d.c:r2d_split", "src/r2d.h:R2D_MAX_VERTS"]}
{"id": "C09", "title": "r2d_reduce returns the exact moments", "statement": "moments[m] equals the integral of x^i y^j over the polygon (counted with winding number), with (i,j) in the documented row-major order, for every order; an empty polygon gives zeros.", "quantifier": "every doubly linked polygon, every polynomial order", "why_tests_cant": "Infinitely many orders and shapes.", "anchors": ["src/r2d.c:r2d_reduce"]}
{"id": "C10", "title": "SHIFT_POLY does not change 2D moments", "statement": "Compiling with SHIFT_POLY (translate to the vertex average, integrate, shift back) gives the same moments as without it.", "quantifier": "every doubly linked nonempty polygon, every order", "why_tests_cant": "Agreement for all orders and all centres.", "anchors": ["src/r2d.c:r2d_reduce", "src/r2d.c:r2d_shift_moments", "src/r2d.c:r2d_poly_center"]}
{"id": "C11", "title": "2D translate, scale, shear and affine act as documented", "statement": "Each call maps every vertex position by the documented transformation, leaves connectivity alone, and changes the area/moments accordingly.", "quantifier": "every polygon and parameter", "why_tests_cant": "All inputs.", "anchors": ["src/r2d.c:r2d_translate", "src/r2d.c:r2d_scale", "src/r2d.c:r2d_shear", "src/r2d.c:r2d_affine"]}
{"id": "C12", "title": "r2d_rotate rotates", "statement": "r2d_rotate maps every vertex (x,y) to (x cos t - y sin t, x sin t + y cos t).", "quantifier": "every polygon and angle", "why_tests_cant": "No test calls it.", "anchors": ["src/r2d.c:r2d_rotate"]}
{"id": "C13", "title": "r2d_is_good decides its documented check", "statement": "r2d_is_good returns 1 exactly when every vertex has two valid edges, is pointed to by two other vertices and does not point to itself.", "quantifier": "every polygon buffer", "why_tests_cant": "All link patterns, including malformed ones.", "anchors": ["src/r2d.c:r2d_is_good"]}
{"id": "C14", "title": "2D initialisers build valid polygons", "statement": "r2d_init_box and r2d_init_poly produce doubly linked polygons that r2d_is_good accepts, with the given positions in counterclockwise order; the box has area (x1-x0)(y1-y0).", "quantifier": "every box and every vertex list with at least three vertices", "why_tests_cant": "All sizes.", "anchors": ["src/r2d.c:r2d_init_box", "src/r2d.c:r2d_init_poly"]}
{"id": "C15", "title": "r2d_poly_faces_from_verts gives the edge half-planes", "statement": "The plane returned for each edge passes through both endpoints and is positive exactly on the left of the edge.", "quantifier": "every vertex list with nonzero edges", "why_tests_cant": "All vertex lists.", "anchors": ["src/r2d.c:r2d_poly_faces_from_verts"]}
{"id": "C16", "title": "r2d_box_faces_from_verts gives the box half-planes", "statement": "A point is on the non-negative side of all four planes exactly when it lies in the box.", "quantifier": "every box and point", "why_tests_cant": "No test uses it.", "anchors": ["src/r2d.c:r2d_box_faces_from_verts"]}
{"id": "C17", "title": "r2d_orient is the signed area", "statement": "r2d_orient is positive exactly for counterclockwise triangles, changes sign when two vertices are swapped, is translation invariant and equals the area that r2d_reduce reports for the triangle.", "quantifier": "every triangle", "why_tests_cant": "All triangles.", "anchors": ["src/r2d.c:r2d_orient"]}
{"id": "C18", "title": "r2d_rasterize conserves every moment", "statement": "The moments added to the destination grid, summed over all cells, equal the moments of the polygon.", "quantifier": "every doubly linked polygon, every grid box, spacing and order", "why_tests_cant": "All recursion shapes of the bisection.", "anchors": ["src/v2d.c:r2d_rasterize", "src/v2d.c:r2d_split_coord"]}
{"id": "C19", "title": "r2d_rasterize is exact per cell", "statement": "What is added to a grid cell is the moment vector of the intersection of the polygon with that cell.", "quantifier": "every doubly linked polygon inside the index box, every cell", "why_tests_cant": "Every cell of every grid.", "anchors": ["src/v2d.c:r2d_rasterize", "src/v2d.c:r2d_split_coord"]}
{"id": "C20", "title": "r2d_rasterize stays in bounds", "statement": "The work stack never exceeds its computed size and every write to dest_grid is inside the documented buffer; distinct (cell, moment) pairs use distinct slots; the loop terminates.", "quantifier": "every grid size", "why_tests_cant": "All grid sizes, not just up to 512^2.", "anchors": ["src/v2d.c:r2d_rasterize"]}
{"id": "C21", "title": "r2d_get_ibox is the minimal index box", "statement": "The returned index box covers every vertex and no smaller index box does.", "quantifier": "every nonempty polygon, positive spacing", "why_tests_cant": "All positions.", "anchors": ["src/v2d.c:r2d_get_ibox"]}
{"id": "C22", "title": "r2d_clamp_ibox clamps box and polygon together", "statement": "After the call the box is the intersection with clampbox (or empty together with the polygon), and the polygon is clipped to the clamp range in every direction where the box stuck out.", "quantifier": "every polygon, index box, clamp box", "why_tests_cant": "All overlap cases.", "anchors": ["src/v2d.c:r2d_clamp_ibox"]}
{"id": "C23", "title": "r3d_clip keeps the polyhedron graph valid", "statement": "For a polyhedron whose vertices have three distinct mutual neighbours, clipping against a plane terminates, stays in bounds, and yields a graph in which every link has a matching reverse link, whatever the arithmetic does.", "quantifier": "every such polyhedron, every plane, every arithmetic", "why_tests_cant": "All graphs and all clipped patterns.", "anchors": ["src/r3d.c:r3d_clip"]}
{"id": "C24", "title": "r3d_clip output lies in every half-space", "statement": "After a successful r3d_clip every vertex satisfies every clip plane and is a convex combination of input vertices.", "quantifier": "every polyhedron and list of planes, exact arithmetic", "why_tests_cant": "All inputs.", "anchors": ["src/r3d.c:r3d_clip"]}
{"id": "C25", "title": "r3d_clip computes the intersection", "statement": "A point off the clip plane is covered by the clipped polyhedron exactly as often as by the input if it is in the half-space and not at all otherwise.", "quantifier": "every polyhedron with planar faces, every plane, every point off the plane", "why_tests_cant": "All shapes and points.", "anchors": ["src/r3d.c:r3d_clip"]}
{"id": "C26", "title": "r3d_clip reports buffer exhaustion instead of overflowing", "statement": "r3d_clip and r3d_split never write past R3D_MAX_VERTS; they return 0 exactly when the buffer would be exceeded (or the polyhedron is empty, for r3d_clip) and 1 otherwise; on failure the caller's polyhedron is untouched.", "quantifier": "every polyhedron, plane list and buffer size", "why_tests_cant": "Needs full buffers.", "anchors": ["src/r3d.c:r3d_clip", "src/r3d.c:r3d_split"]}
{"id": "C27", "title": "Complementary r3d clips and r3d_split conserve moments", "statement": "The moments of the two sides add up to the moments of the input.", "quantifier": "every polyhedron with planar faces, every plane, every order", "why_tests_cant": "All shapes.", "anchors": ["src/r3d.c:r3d_clip", "src/r3d.c:r3d_split", "src/r3d.c:r3d_reduce"]}
{"id": "C28", "title": "r3d_split splits by side", "statement": "out_pos[i] is the part of inpolys[i] in the non-negative half-space, out_neg[i] the part in the non-positive one; one-sided polyhedra are copied and the other output is zeroed.", "quantifier": "every array of polyhedra and plane", "why_tests_cant": "All inputs.", "anchors": ["src/r3d.c:r3d_split"]}
{"id": "C29", "title": "r3d_reduce returns the exact moments", "statement": "Every face is integrated exactly once and moments[m] equals the integral of x^i y^j z^k over the polyhedron in the documented order, for every order.", "quantifier": "every polyhedron with planar faces, every order", "why_tests_cant": "All graphs and orders.", "anchors": ["src/r3d.c:r3d_reduce"]}
{"id": "C30", "title": "SHIFT_POLY does not change 3D moments", "statement": "Integrating about the vertex average and shifting back gives the same moments as integrating directly.", "quantifier": "every closed polyhedron, every order", "why_tests_cant": "All orders.", "anchors": ["src/r3d.c:r3d_reduce", "src/r3d.c:r3d_shift_moments"]}
{"id": "C31", "title": "3D rotate, translate, scale, shear and affine act as documented", "statement": "Each maps every position as documented and leaves connectivity alone; rotation preserves lengths.", "quantifier": "every polyhedron and parameter", "why_tests_cant": "All inputs.", "anchors": ["src/r3d.c:r3d_rotate", "src/r3d.c:r3d_translate", "src/r3d.c:r3d_scale", "src/r3d.c:r3d_shear", "src/r3d.c:r3d_affine"]}
{"id": "C32", "title": "r3d_is_good decides valid polyhedral graphs", "statement": "r3d_is_good returns 1 exactly when every vertex has three distinct valid edges, is pointed to by three vertices and every component is 3-vertex-connected; it stays in bounds.", "quantifier": "every polyhedron buffer", "why_tests_cant": "All graphs.", "anchors": ["src/r3d.c:r3d_is_good"]}
{"id": "C33", "title": "3D tet and box initialisers build valid polyhedra", "statement": "r3d_init_tet and r3d_init_box produce graphs that r3d_is_good accepts, with outward faces; their volume is r3d_orient resp. the product of side lengths.", "quantifier": "every tetrahedron and box", "why_tests_cant": "All positions.", "anchors": ["src/r3d.c:r3d_init_tet", "src/r3d.c:r3d_init_box"]}
{"id": "C34", "title": "r3d_init_poly rebuilds the face structure", "statement": "For a trivalent polyhedron given by its oriented faces, the vertex graph built by r3d_init_poly has exactly the given faces.", "quantifier": "every oriented trivalent face list", "why_tests_cant": "All polyhedra.", "anchors": ["src/r3d.c:r3d_init_poly"]}
{"id": "C35", "title": "3D face-plane helpers give the supporting half-spaces", "statement": "r3d_box_faces_from_verts, r3d_tet_faces_from_verts and r3d_poly_faces_from_verts return planes containing their faces and non-negative exactly on the inner side.", "quantifier": "every box, tetrahedron, planar-faced polyhedron", "why_tests_cant": "All inputs.", "anchors": ["src/r3d.c:r3d_box_faces_from_verts", "src/r3d.c:r3d_tet_faces_from_verts", "src/r3d.c:r3d_poly_faces_from_verts"]}
{"id": "C36", "title": "r3d_orient is the signed volume", "statement": "r3d_orient is the signed tetrahedron volume: it changes sign under swaps, is translation invariant and agrees with r3d_reduce on r3d_init_tet.", "quantifier": "every four points", "why_tests_cant": "All points.", "anchors": ["src/r3d.c:r3d_orient"]}
{"id": "C37", "title": "r3d_voxelize conserves every moment", "statement": "The moments added to the grid, summed over all cells, equal the moments of the polyhedron.", "quantifier": "every polyhedron whose intermediate pieces stay valid, every grid", "why_tests_cant": "All grids.", "anchors": ["src/v3d.c:r3d_voxelize", "src/v3d.c:r3d_split_coord"]}
{"id": "C38", "title": "r3d_voxelize stays in bounds", "statement": "The work stack never exceeds its computed size, every grid write is inside the documented buffer, distinct (cell, moment) pairs use distinct slots, and the loop terminates.", "quantifier": "every grid size", "why_tests_cant": "All sizes.", "anchors": ["src/v3d.c:r3d_voxelize"]}
{"id": "C39", "title": "3D index boxes", "statement": "r3d_get_ibox returns the minimal covering index box; r3d_clamp_ibox intersects it with the clamp box and clips the polyhedron accordingly.", "quantifier": "every polyhedron and box", "why_tests_cant": "All positions.", "anchors": ["src/v3d.c:r3d_get_ibox", "src/v3d.c:r3d_clamp_ibox"]}
{"id": "C40", "title": "r3d_init_brep walks every face once", "statement": "The boundary representation lists every face of every component exactly once, with in-range vertex indices.", "quantifier": "every valid polyhedron", "why_tests_cant": "All graphs.", "anchors": ["src/r3d.c:r3d_init_brep"]}
{"id": "C41", "title": "rNd_orient is the signed simplex volume", "statement": "rNd_det equals the determinant of its matrix and rNd_orient equals det(v_i - v_0)/RND_DIM!.", "quantifier": "every matrix", "why_tests_cant": "All matrices.", "anchors": ["src/rNd.c:rNd_det", "src/rNd.c:rNd_orient"]}
{"id": "C42", "title": "ND initialisers build valid graphs", "statement": "rNd_init_simplex and rNd_init_box give every vertex RND_DIM distinct neighbours, with symmetric links, at the documented positions.", "quantifier": "every simplex and box", "why_tests_cant": "All inputs.", "anchors": ["src/rNd.c:rNd_init_simplex", "src/rNd.c:rNd_init_box"]}
{"id": "C43", "title": "rNd_affine applies the matrix", "statement": "rNd_affine maps each vertex by the homogeneous matrix, so the identity matrix changes nothing.", "quantifier": "every polytope and matrix", "why_tests_cant": "No test calls it.", "anchors": ["src/rNd.c:rNd_affine"]}
{"id": "C44", "title": "rNd_clamp_ibox stays in bounds", "statement": "rNd_clamp_ibox never writes outside its plane buffer.", "quantifier": "every index box and clamp box", "why_tests_cant": "Needs a box sticking out on all sides.", "anchors": ["src/vNd.c:rNd_clamp_ibox"]}
{"id": "C45", "title": "rNd_voxelize stays in bounds", "statement": "The work stack never exceeds its computed size and every grid write is inside the buffer, at distinct slots for distinct cells.", "quantifier": "every grid size", "why_tests_cant": "All sizes.", "anchors": ["src/vNd.c:rNd_voxelize"]}
{"id": "C46", "title": "rNd_rotate, rNd_translate, rNd_scale, rNd_shear act as documented", "statement": "Each maps every position as documented and leaves connectivity alone; rotation preserves lengths.", "quantifier": "every polytope and parameter", "why_tests_cant": "All inputs.", "anchors": ["src/rNd.c:rNd_rotate", "src/rNd.c:rNd_translate", "src/rNd.c:rNd_scale", "src/rNd.c:rNd_shear"]}
{"id": "C47", "title": "rNd_get_ibox returns the minimal covering index box", "statement": "The returned index box covers every vertex and is contained in every index box that does.", "quantifier": "every polytope, dimension and positive spacing", "why_tests_cant": "All inputs.", "anchors": ["src/vNd.c:rNd_get_ibox"]}
{"id": "C48", "title": "rNd_clip keeps the structure of a simple polytope", "statement": "One cut keeps exactly the vertices that are not clipped, adds one vertex on each cut edge, and the result is again a simple polytope: every vertex on RND_DIM facets, neighbours share all but one, 2-face numbers consistent.", "quantifier": "every simple polytope, plane, dimension and arithmetic", "why_tests_cant": "All graphs and dimensions.", "anchors": ["src/rNd.c:rNd_clip"]}
{"id": "C49", "title": "rNd_clip computes the intersection with half-spaces", "statement": "The result of clipping a convex polytope is the set of its points inside all half-spaces, and can be clipped again. The buffer does not overflow if C(F+k,D) vertices fit, for F facets and k planes.", "quantifier": "every convex polytope and list of planes, special position included", "why_tests_cant": "All positions and dimensions.", "anchors": ["src/rNd.c:rNd_clip"]}
{"id": "C50", "title": "ND initialisers build the polytopes asked for", "statement": "rNd_init_simplex builds the convex hull of its points and rNd_init_box the points between its corners, as simple convex polytopes fit for rNd_clip.", "quantifier": "every simplex and box", "why_tests_cant": "All inputs and dimensions.", "anchors": ["src/rNd.c:rNd_init_simplex", "src/rNd.c:rNd_init_box"]}
{"id": "C51", "title": "rNd_split splits at the plane", "statement": "The two outputs are the parts of the polytope on either side of the coordinate plane.", "quantifier": "every convex polytope, axis and coordinate", "why_tests_cant": "All inputs and dimensions.", "anchors": ["src/vNd.c:rNd_split"]}
{"id": "C52", "title": "rNd_reduce returns the volume", "statement": "The number that rNd_reduce computes is the volume of the polytope; for a simplex it is |det|/D!, for a box the product of the sides, after rNd_clip in general position the volume of the intersection.", "quantifier": "every simple convex polytope in every dimension", "why_tests_cant": "A sum over all flags of the polytope; tests can only compare examples whose volume is known.", "anchors": ["src/rNd.c:rNd_reduce", "src/rNd.c:reduce_helper"]}
{"id": "C53", "title": "rNd_voxelize deposits the volume in each cell", "statement": "After rNd_voxelize, the entry of each cell has grown by the volume of the part of the polytope in the cell (cells at the border of the index box also collect what is outside), and the total by the volume of the polytope; no buffer overflows if C(F+2D+1,D) vertices fit, F being the number of planes.", "quantifier": "every simple convex polytope in general position, grid and index box, in every dimension from 3 on", "why_tests_cant": "All inputs and dimensions; exact volumes of pieces are not available to tests.", "anchors": ["src/vNd.c:rNd_voxelize", "src/vNd.c:rNd_split", "src/rNd.c:rNd_clip", "src/rNd.c:rNd_reduce"]}
{"id": "C54", "title": "rNd_is_good decides valid polytope graphs", "statement": "rNd_is_good returns 1 exactly when every vertex has RND_DIM distinct valid edges, is pointed to by RND_DIM vertices and every component is RND_DIM-vertex-connected; it stays in bounds. It accepts the graph of every simple convex polytope (Balinski's theorem), in particular every result of rNd_clip.", "quantifier": "every polytope buffer, every dimension", "why_tests_cant": "All graphs.", "anchors": ["src/rNd.c:rNd_is_good"]}
{"id": "C55", "title": "r3d_init_poly splits vertices with more than three corners", "statement": "For every closed oriented surface whose corners at each vertex form one fan of at least three, r3d_init_poly returns 1 and builds a trivalent graph in which each vertex of n corners is a connected group of n-2 vertices at its position, with exactly the given faces; it is valid if the faces meet as those of a convex polyhedron. If the corners do not fit the buffer it returns 0.", "quantifier": "every oriented face list with corners in fans", "why_tests_cant": "All polyhedra, any number of corners per vertex; the loops re-link temporary copies in place.", "anchors": ["src/r3d.c:r3d_init_poly"]}
{"id": "C56", "title": "Convex polyhedra from face list to moments", "statement": "For the face list of every convex polyhedron that fits the buffer, r3d_init_poly builds a valid poly with flat faces that covers exactly the intersection of the face half-spaces, once; after any successful r3d_clip, r3d_reduce returns the integrals of the monomials over the intersection of the convex polyhedron with the half-spaces; and r3d_voxelize adds to each cell the integrals over the part of the convex polyhedron in the cell.", "quantifier": "every convex polyhedron given by its faces, every list of clip planes, every grid, every order", "why_tests_cant": "All convex polyhedra, any number of faces and corners.", "anchors": ["src/r3d.c:r3d_init_poly", "src/r3d.c:r3d_clip", "src/r3d.c:r3d_reduce", "src/v3d.c:r3d_voxelize"]}
{"id": "C57", "title": "Convex polygons from corners to moments, without overflow", "statement": "A polygon that no line cuts more than twice, in particular every convex polygon, gains at most one vertex per clip plane and per split; r2d_clip, r2d_split and r2d_rasterize therefore never leave the vertex buffer if it has room for one vertex per plane and one more, for four more, and for one per level of subdivision and three more. From the corners of a convex polygon, r2d_init_poly, r2d_clip and r2d_reduce return the integrals over the intersection with the half-planes, and r2d_rasterize the integrals per cell, and none of the calls can fail. With room for one vertex only, every proper cut overruns the buffer.", "quantifier": "every convex polygon of any number of corners, every list of clip planes, every grid, every order", "why_tests_cant": "All convex polygons; the bound on the number of vertices is needed after every plane.", "anchors": ["src/r2d.c:r2d_clip", "src/r2d.c:r2d_split", "src/r2d.c:r2d_reduce", "src/r2d.c:r2d_init_poly", "src/v2d.c:r2d_rasterize"]}
{"id": "C58", "title": "Convex polyhedra from faces to moments, without overflow", "statement": "A convex polyhedron with three faces at every vertex gains at most two vertices per clip plane and per split, whatever the position of the planes; r3d_clip, r3d_split and r3d_voxelize therefore never run out of vertex buffer if V+2(m-1) vertices (m planes) need at most two thirds of it less two, or V+2(k-1) vertices (k levels of subdivision) at most half of it less two. From such a face list, a box or a tetrahedron, the initialiser, r3d_clip and r3d_reduce, or r3d_voxelize, all succeed and return the exact integrals of the monomials over the intersection; with 512 vertices a box can be clipped by any 167 planes, and boxes and tetrahedra be distributed over any grid of at most 2^31 cells per axis.", "quantifier": "every simple convex polyhedron, box and tetrahedron, every list of clip planes, every grid, every order", "why_tests_cant": "All polyhedra and planes, including planes through vertices and edges; the bound is needed after every plane.", "anchors": ["src/r3d.c:r3d_clip", "src/r3d.c:r3d_init_box", "src/r3d.c:r3d_init_tet", "src/r3d.c:r3d_init_poly", "src/r3d.c:r3d_reduce", "src/r3d.c:r3d_split", "src/v3d.c:r3d_voxelize"]}
{"id": "C59", "title": "Rounding errors of r2d_clip and r3d_clip", "statement": "If every operation rounds with relative error at most u (2^-53 for double), then after clipping against m planes no vertex violates one of the half-spaces by more than (6m+5)u (6m+6 in 3D) times |n|_1*M+|d|, where M bounds the coordinates, no coordinate exceeds (1+6mu)M, and every vertex is within 6muM of the convex hull of the poly.", "quantifier": "every rounding, every linked polygon or valid polyhedron, every list of planes with 30mu<=1", "why_tests_cant": "Bounds for all inputs and all rounding patterns; the cuts are decided by rounded distances, so the result need not be combinatorially that of exact arithmetic.", "anchors": ["src/r2d.c:r2d_clip", "src/r3d.c:r3d_clip"]}
{"id": "C60", "title": "Rounding errors of r2d_reduce", "statement": "If every operation rounds with relative error at most u, the moment of order N of a polygon with n vertices in [-M,M]^2 differs from the integral by at most 4n(n+8N+18)u M^(N+2)/(N+2) without SHIFT_POLY, and by at most 8n((n+13)N+3n+34+(N+1)(N+2)/2) u 3^N M^(N+2) with it.", "quantifier": "every rounding, every linked polygon, every order", "why_tests_cant": "Bounds for all inputs, orders and rounding patterns.", "anchors": ["src/r2d.c:r2d_reduce", "src/r2d.c:r2d_shift_moments"]}
{"id": "C61", "title": "Rounding errors of r3d_reduce", "statement": "If every operation rounds with relative error at most u, the moment of order N of a closed polyhedron with n vertices in [-M,M]^3, flat or not, differs from the sum of the moments of its fan tetrahedra (the integral, if the faces are flat) by at most 18n(3n+12N+27)u M^(N+3)/(N+3) without SHIFT_POLY, and by at most 48n((n+17)N+6n+51+(N+1)(N+2)(N+3)/6) u 3^N M^(N+3) with it.", "quantifier": "every rounding, every valid polyhedron, every order", "why_tests_cant": "Bounds for all inputs, orders and rounding patterns.", "anchors": ["src/r3d.c:r3d_reduce", "src/r3d.c:r3d_shift_moments"]}
{"id": "C62", "title": "Rounding errors of r2d_clip followed by r2d_reduce", "statement": "If every operation rounds with relative error at most u <= 1/1000, clipping any doubly linked polygon with coordinates at most M against m lines (30 m u <= 1) in a buffer of V vertices gives, unless the buffer overflows, a polygon that differs from the exact intersection by an area of at most 320 m V u M^2 (the integral of the absolute difference of the winding numbers), wherever the lines lie; and the moment of order N that r2d_reduce computes from it differs from the integral over the exact intersection by at most (320 m + 4(V+8N+18)/(N+2)) V u (1.2 M)^(N+2) without SHIFT_POLY, and by at most (320 m + 8*3^N((V+13)N+3V+34+(N+1)(N+2)/2)) V u (1.2 M)^(N+2) with it.", "quantifier": "every rounding, every linked polygon, every list of lines, every order", "why_tests_cant": "Misclassified vertices change the links of the result; only an argument over all rounding patterns shows that the covered region still changes little.", "anchors": ["src/r2d.c:r2d_clip", "src/r2d.c:r2d_reduce"]}
{"id": "C63", "title": "Rounding errors of r3d_clip followed by r3d_reduce", "statement": "If every operation rounds with relative error at most u <= 1/1000, clipping any valid polyhedron with coordinates at most M and faces flat up to eta against m planes (30 m u <= 1) in a buffer of V vertices gives, unless the buffer overflows, a valid polyhedron with faces flat up to eta + (40+5m) u 1.2 M, whose region differs from the exact intersection by a volume of at most V((150 m^2 + 7545 m + 5015) u (1.2 M)^3 + 59 (m+1) (1.2 M)^2 eta), wherever the planes lie; and the moment of order N that r3d_reduce computes from it differs from the integral over the exact intersection by at most (1.2 M)^N times that plus the error of r3d_reduce, with and without SHIFT_POLY.", "quantifier": "every rounding, every valid polyhedron with nearly flat faces, every list of planes, every order", "why_tests_cant": "Misclassified vertices change the links of the result and faces bend; only an argument over all rounding patterns shows that the region still changes little.", "anchors": ["src/r3d.c:r3d_clip", "src/r3d.c:r3d_reduce"]}
{"id": "C64", "title": "Rounding errors of r3d_split and r3d_voxelize", "statement": "If every operation rounds with relative error at most u <= 1/1000 and the input is a valid polyhedron with coordinates at most M and faces flat up to eta in a buffer of V vertices: (a) both parts that a successful r3d_split returns are valid, have faces flat up to eta + 25 u M, and their regions differ from the parts of the polyhedron on the two sides of the plane by volumes of at most V(11450 u M^3 + 119 M^2 eta); (b) if r3d_voxelize returns, the entry of each cell for a moment of order N has grown by the integral over the part of the polyhedron in that cell (extended to infinity at the border of the box), up to V((150 m^2 + 7545 m + 5015) u (1.2 M)^(N+3) + 59 (m+1) eta (1.2 M)^(N+2)) plus the error of r3d_reduce and the rounding of the final addition, where m is the number of halvings from the index box to a cell and 30 m u <= 1; with and without SHIFT_POLY.", "quantifier": "every rounding, every valid polyhedron with nearly flat faces, every plane, every index box, spacing and order", "why_tests_cant": "A cell is reached through a sequence of rounded cuts with rounded grid planes, each of which may misclassify vertices; tests sample few of these sequences.", "anchors": ["src/r3d.c:r3d_split", "src/v3d.c:r3d_voxelize", "src/v3d.c:r3d_split_coord"]}
{"id": "C65", "title": "Rounding errors of r2d_split and r2d_rasterize", "statement": "If every operation rounds with relative error at most u <= 1/1000 and the input is a doubly linked polygon with coordinates at most M in a buffer of V vertices: (a) both parts that r2d_split returns are doubly linked, and their regions differ from the parts of the polygon on the two sides of the line by areas of at most 380 V u M^2; (b) if r2d_rasterize returns, the entry of each cell for a moment of order N has grown by the integral over the part of the polygon in that cell (extended to infinity at the border of the box), up to 380 m V u (1.2 M)^(N+2) plus the error of r2d_reduce and the rounding of the final addition, where m is the number of halvings from the index box to a cell and 30 m u <= 1; with and without SHIFT_POLY.", "quantifier": "every rounding, every doubly linked polygon, every line, every index box, spacing and order", "why_tests_cant": "A cell is reached through a sequence of rounded cuts at rounded grid lines, each of which may misclassify vertices; tests sample few of these sequences.", "anchors": ["src/r2d.c:r2d_split", "src/v2d.c:r2d_rasterize", "src/v2d.c:r2d_split_coord"]}
{"id": "C66", "title": "32-bit integers and the stack size in the grid routines", "statement": "With the C integer types: (a) for every poly, spacing, order and index box with 32-bit corners and extents, if the moment-count macro fits in 32 bits and the grid has at most 2^31 numbers (rNd: fewer than 2^31 cells), no integer expression of r2d_rasterize, r3d_voxelize, rNd_voxelize overflows and they do exactly what they do with unbounded integers, even if the library log2 that sizes the work stack has an error of 2^-33; (b) the limits are sharp: rNd_voxelize overflows for every non-empty polytope as soon as there are 2^31 cells, r2d_rasterize and r3d_voxelize for every poly inside a cell one of whose indices is 2^31 or more (for example the last cell of 512^3 cells with moments up to order 3); (c) the conversions to integers in the get_ibox routines are defined exactly if some index box with 32-bit corners covers the vertices, and never for an empty poly with spacing up to 1e20; (d) the clamp_ibox routines never overflow.", "quantifier": "every poly, arithmetic, index box, spacing, order and dimension", "why_tests_cant": "A grid of 2^31 numbers needs 16 GB; tests do not allocate it, and overflow in C shows no symptom of its own.", "anchors": ["src/v2d.c:r2d_rasterize", "src/v3d.c:r3d_voxelize", "src/vNd.c:rNd_voxelize", "src/v2d.c:r2d_get_ibox", "src/v3d.c:r3d_get_ibox", "src/vNd.c:rNd_get_ibox", "src/v2d.c:r2d_clamp_ibox"]}
{"id": "C67", "title": "The deprecated 2D rasterizer: exact, or it never returns", "statement": "For the version of deprecated/r2d.c without USE_TREE, in exact arithmetic, with positive grid spacing, order at most 2 and buffers as large as documented, r2d_rasterize_quad behaves as follows. (a) If every cell that has a corner inside each of the four half-planes also has a point inside all four, the call returns, all accesses are in bounds, and for every cell the stored moments are exactly the integrals of 1, x, y, x^2, y^2, xy over the part of the cell in the four half-planes; nothing else is written. (b) Otherwise the call never returns; this happens for a square of side sqrt(2) turned by 45 degrees. (c) Orders above 2 read outside r2d_num_moments.", "quantifier": "every grid size, spacing, four half-planes, previous buffer contents", "why_tests_cant": "Whether the clip loop ends depends on the position of the quadrilateral relative to single grid cells; a test that hits such a position hangs rather than fails, and the exactness claim is about integrals over all positions.", "anchors": ["deprecated/r2d.c:r2d_rasterize_quad", "deprecated/r2d.c:r2d_clip_quad", "deprecated/r2d.c:r2d_reduce", "deprecated/r2d.c:r2du_init_box"]}
{"id": "C68", "title": "The tree version of the deprecated 2D rasterizer", "statement": "In exact arithmetic, for every grid with at least one row and one column, positive spacing, order at most 2: r2d_rasterize_quad of deprecated/r2d.c compiled with USE_TREE returns exactly what it returns without USE_TREE, and fails to return on the same inputs. treestack[128] is never overrun when the grid sizes fit in 32 bits, and its loop makes fewer than 2 n.i n.j iterations. With n.i = 0 and n.j = 1 the stack is overrun whenever the quadrilateral's sides separate the two grid points.", "quantifier": "every grid size, spacing, four half-planes, previous buffer contents", "why_tests_cant": "Agreement of two algorithms on all grids and quadrilaterals; the stack depth depends on the logarithm of the grid size and is not exercised by small tests.", "anchors": ["deprecated/r2d.c:r2d_rasterize_quad"]}
{"id": "C69", "title": "Convex polyhedra gain at most two vertices per plane, so the vertex buffer suffices", "statement": "Let a polyhedron be made by r3d_init_box or r3d_init_tet (any arguments, also flat or inverted) and then by any sequence of r3d_clip, r3d_split, r3d_translate, r3d_scale (non-zero), r3d_shear and r3d_rotate, in exact arithmetic. Counting n = 8 or 4 and 2 for every plane, it has at most n vertices. r3d_clip by k more planes returns 1 if 3n + 6k <= 2*R3D_MAX_VERTS + 3 (so 167 planes fit after a box), r3d_split succeeds if 2n + 4 <= R3D_MAX_VERTS, and r3d_voxelize, whose splits have no check for room, stays inside its buffers if 2n + 4*(number of halvings) <= R3D_MAX_VERTS; with 512 vertices that holds for n <= 70 and every grid with int sides.", "quantifier": "all boxes and tetrahedra, all sequences of operations, all planes, grids and orders", "why_tests_cant": "The worst cut over all polyhedra reachable by hundreds of planes cannot be found by trying; planes through vertices and flat polyhedra are cases of measure zero.", "anchors": ["src/r3d.c:r3d_clip", "src/r3d.c:r3d_split", "src/v3d.c:r3d_voxelize", "src/r3d.h:R3D_MAX_VERTS"]}
{"id": "C70", "title": "The deprecated 3D voxelizer is exact and always returns", "statement": "For the version of deprecated/r3d.c without USE_TREE, in exact arithmetic, with positive grid spacing, order at most 2, buffers as large as documented and four planes none of which is the equation 0 = 0, r3d_voxelize_tet returns, all accesses (vertex buffer, edge marks, search stack, grid buffers) are in bounds, and for every cell the stored moments are exactly the integrals of 1, x, y, z, x^2, y^2, z^2, xy, yz, zx over the part of the cell in the four half-spaces; nothing else is written. Orders above 2 read outside r3d_num_moments.", "quantifier": "every grid size, spacing, four half-spaces (also through grid points, parallel, or empty in common), previous buffer contents", "why_tests_cant": "The clipper and the reducer search a graph in a buffer that also holds dead vertices; whether the searches end and stay in the buffer, and whether cells that merely look cut give zero, depends on degenerate positions of the planes relative to grid points.", "anchors": ["deprecated/r3d.c:r3d_voxelize_tet", "deprecated/r3d.c:r3d_clip_tet", "deprecated/r3d.c:r3d_reduce", "deprecated/r3d.c:r3du_init_box"]}
{"id": "C71", "title": "The tree version of the deprecated 3D voxelizer agrees with the plain one", "statement": "r3d_voxelize_tet of deprecated/r3d.c compiled with USE_TREE stores, on every grid of positive sizes and spacing, the integrals over the part of each cell in the four half-spaces, without overrunning its stack of 128 nodes.", "quantifier": "all grid sizes and spacings, orders up to 2 and four half-spaces (exact arithmetic)", "why_tests_cant": "The two versions agree on every cell that is wholly inside or outside and on symmetric inputs; the wrong order of the corners shows only in the cut cells of a build with USE_TREE.", "anchors": ["deprecated/r3d.c:r3d_voxelize_tet", "deprecated/r3d.c:r3d_treenode", "deprecated/r3d.c:r3du_init_box"]}
{"id": "C72", "title": "The deprecated voxelizers conserve every moment of a tetrahedron or quadrilateral", "statement": "In exact arithmetic: (a) for every tetrahedron with positive r3du_orient the planes of r3du_tet_faces_from_verts make r3d_voxelize_tet (without USE_TREE) return, and each cell holds the integrals over the part of the cell in the convex hull of the four vertices; if the vertices lie in the box of the grid, the cells add up to the integrals over the tetrahedron, the volumes to r3du_orient. With negative r3du_orient zeros are stored. (b) For every convex quadrilateral with counterclockwise corners the planes of r2du_faces_from_verts make r2d_rasterize_quad, if it returns, store the integrals over the part of each cell in the convex hull of the corners, and the cells add up in the same way. (c) r2du_orient is minus the signed area (and minus r2d_orient): a quadrilateral for which it is positive gets zeros, or makes the rasterizer hang.", "quantifier": "all tetrahedra, convex quadrilaterals, grids, spacings and orders up to 2", "why_tests_cant": "Conservation is a statement about all positions of the body relative to the grid; a test with an orientation convention of its own does not notice the sign.", "anchors": ["deprecated/r3d.c:r3du_tet_faces_from_verts", "deprecated/r3d.c:r3du_orient", "deprecated/r3d.c:r3d_voxelize_tet", "deprecated/r2d.c:r2du_faces_from_verts", "deprecated/r2d.c:r2du_orient", "deprecated/r2d.c:r2d_rasterize_quad"]}
{"id": "C73", "title": "Clipping and splitting in any dimension are accurate to a few rounding errors", "statement": "Let every floating-point operation have relative error at most u, no coordinate be larger than M, and all neighbours exist. (a) If rNd_clip returns, all neighbours of the result exist, no vertex of it is outside a half-space by more than (6m+3(D+1))u(|n|M+|d|) for m planes, and every vertex is within 6muM of the convex hull of the input, coordinate by coordinate. (b) For one plane and a simple polytope of dimension 3 or more rNd_clip returns in every arithmetic, if the buffer has room for D+1 times the vertices. (c) The two results of rNd_split lie on their sides of the splitting coordinate up to (4D+18)u(M+|coord|), and near the hull of the input.", "quantifier": "all dimensions, polytopes, planes and roundings", "why_tests_cant": "Rounding errors accumulate over the planes; a test sees a few sequences and has no exact answer to compare with.", "anchors": ["src/rNd.c:rNd_clip", "src/vNd.c:rNd_split"]}
{"id": "C74", "title": "rNd_reduce is unstable for vertices that nearly coincide", "statement": "In every dimension D >= 2 and for every eps > 0 there is a simple convex polytope of size 2 and volume at most 1/2+eps, for which rNd_reduce returns the volume, and a way of moving its vertices by at most eps, inside the polytope and with linearly independent edges at each vertex, so that rNd_reduce returns at least 1-eps, in exact arithmetic with exact square roots. So no bound on the errors of the positions, such as C73, bounds the error of the volume.", "quantifier": "all dimensions and all eps", "why_tests_cant": "Needs two vertices within rounding errors of each other whose connecting line comes out in a wrong direction; on well separated vertices the function is accurate.", "anchors": ["src/rNd.c:rNd_reduce", "src/rNd.c:reduce_helper"]}
{"id": "C75", "title": "Breps neither leak nor corrupt memory", "statement": "For every valid polyhedron with at least one vertex and an unused vertex in its buffer, every heap and every content of uninitialised memory: r3d_init_brep reads and writes only inside live blocks it allocated itself; r3d_print_brep then prints, per connected component, the vertices and every face once; r3d_free_brep frees every block exactly once, also when other blocks have been allocated, freed or changed meanwhile; afterwards the heap is what it was before.", "quantifier": "for all valid polyhedra, all numbers of components (the array of breps grows by realloc), all heaps, all contents of fresh memory", "why_tests_cant": "A leak or a double free shows only with the right tool and the right input; the array is moved only from three components on, which no test builds.", "anchors": ["src/r3d.c:r3d_init_brep", "src/r3d.c:r3d_print_brep", "src/r3d.c:r3d_free_brep"]}
{"id": "C76", "title": "The recursive splitting tests of r3d cannot fail", "statement": "For every sequence of values of rand(), every content of uninitialised memory, every non-negative function in place of sqrt and every function in place of log and cos: in exact arithmetic test_recursive_splitting_degenerate and test_recursive_splitting_degenerate_perturbed of r3d_unit_tests.c (10 tetrahedra, up to 2^17-1 splits each) end with PASS, with a logarithm of zero, or by drawing random numbers for ever; no assertion fails, no expectation is off, the stack of 64 polys and the vertex buffer suffice. The same holds of test_recursive_splitting_nondegenerate unless a random normal vector is zero, which with the true log and cos takes three times RAND_MAX; then it fails. rand_tet_3d returns the signed volume of its tetrahedron, at least the minimum asked for; the planes of the six thru_* helpers contain the vertices, edges, faces and centroids they are named after.", "quantifier": "for all values of rand(), all memory contents, both settings of SHIFT_POLY, all buffers of at least 56 vertices", "why_tests_cant": "The statement is about the tests themselves: running them shows one sequence of random numbers.", "anchors": ["src/tests/r3d_unit_tests.c:test_recursive_splitting_nondegenerate", "src/tests/r3d_unit_tests.c:test_recursive_splitting_degenerate", "src/tests/r3d_unit_tests.c:test_recursive_splitting_degenerate_perturbed", "src/tests/test_helpers.c:rand_tet_3d", "src/tests/test_helpers.c:thru_face_3d", "src/tests/test_helpers.c:point_plane_3d"]}
{"id": "C77", "title": "The recursive splitting tests of r2d cannot fail", "statement": "For every sequence of values of rand(), every content of uninitialised memory, every non-negative function in place of sqrt and every function in place of log and cos: in exact arithmetic test_recursive_splitting_degenerate, its perturbed version and, unless a random normal vector is zero, test_recursive_splitting_nondegenerate of r2d_unit_tests.c (100 triangles, up to 2^17-1 splits each) end with PASS, with a logarithm of zero, or by drawing random numbers for ever. test_random_verts, which splits a tangled polygon, passes if the vertex buffer is large enough. rand_tri_2d returns the signed area of its triangle, at least the minimum asked for; the lines of thru_edge_2d and thru_vert_rand_2d contain the edges and vertices they are named after; those of thru_cent_2d and thru_vert_cent_2d contain the mean of the vertices.", "quantifier": "for all values of rand(), all memory contents, both settings of SHIFT_POLY, all buffers of at least 21 vertices; test_random_verts for all numbers of vertices and depths up to 62", "why_tests_cant": "The statement is about the tests themselves: running them shows one sequence of random numbers. The wrong centroid goes unnoticed because the sums agree for any line.", "anchors": ["src/tests/r2d_unit_tests.c:test_recursive_splitting_nondegenerate", "src/tests/r2d_unit_tests.c:test_recursive_splitting_degenerate", "src/tests/r2d_unit_tests.c:test_recursive_splitting_degenerate_perturbed", "src/tests/r2d_unit_tests.c:test_random_verts", "src/tests/test_helpers.c:get_centroid_2d", "src/tests/test_helpers.c:rand_tri_2d", "src/tests/test_helpers.c:thru_edge_2d"]}
{"id": "C78", "title": "Splitting leaves both parts in the input, and the splitting tests compare against that", "statement": "r3d_split and r2d_split leave in inpolys[i], documented as [in], a copy of out_pos[i] and, on other vertices, a copy of out_neg[i], and nothing else; the poly is untouched if it lies on one side of the plane and otherwise grows by two vertices for every edge across the plane, without exceeding the buffer. It describes the same solid (off the plane) and has the same moments as the original. test_split_tets_thru_centroid and test_split_tris_thru_centroid cannot fail in exact arithmetic; what they compare is true of any two closed polys in one buffer.", "quantifier": "for all arrays of closed polys, all planes, all output and scratch contents; the tests for all values of rand() and all memory contents", "why_tests_cant": "Only a particular call is seen to change its input; that the test is blind to where the cut is made concerns every wrong program with the same links.", "anchors": ["src/r3d.c:r3d_split", "src/r2d.c:r2d_split", "src/tests/r3d_unit_tests.c:test_split_tets_thru_centroid", "src/tests/r2d_unit_tests.c:test_split_tris_thru_centroid"]}
{"id": "C79", "title": "The tests of moments, voxelization and rasterization cannot fail", "statement": "r3d_reduce and r2d_reduce of an axis-aligned box give the product of (hi^(n+1)-lo^(n+1))/(n+1) over the axes for every moment of every order; test_moments in 3D and 2D ends with PASS in exact arithmetic. For every sequence of values of rand(), every content of uninitialised memory, every sqrt that is not too small, exact floor and ceil: test_voxelization and test_rasterization end with PASS, with a logarithm of zero, or by drawing random numbers for ever; the index box is never empty, the size passed to calloc is an int and the size of the grid, and no read is outside the grid. The part of these tests after r3d_get_ibox and r2d_get_ibox passes with every non-empty index box.", "quantifier": "for all values of rand(), all memory contents, both settings of SHIFT_POLY, all buffers of at least 68 (16) vertices; box moments for all boxes and orders", "why_tests_cant": "The statement is about the tests themselves: running them shows one sequence of random numbers, and that a test is blind to a wrong index box is not seen by running it.", "anchors": ["src/tests/r3d_unit_tests.c:test_moments", "src/tests/r3d_unit_tests.c:test_voxelization", "src/tests/r2d_unit_tests.c:test_moments", "src/tests/r2d_unit_tests.c:test_rasterization", "src/r3d.c:r3d_init_box", "src/r3d.c:r3d_reduce"]}
{"id": "C80", "title": "Splitting the non-convex polyhedron of the unit tests cannot fail", "statement": "The polyhedron that test_split_nonconvex builds by hand is valid with planar faces, covers once exactly the points between a zig-zag and the same zig-zag moved up by ZOFF, and is not convex; test_split_nonconvex ends with PASS and without warnings in exact arithmetic, for every positive ZOFF. The checks of the test pass for every valid polyhedron with planar faces, convex or not, whose covering number is nowhere negative, and for every plane; with a negative ZOFF the test fails.", "quantifier": "for all memory contents, all ZOFF > 0, both settings of SHIFT_POLY, all buffers of at least 48 vertices; the checks for all polyhedra and planes", "why_tests_cant": "The test has one polyhedron and three planes; that every other non-convex polyhedron would pass as well is not seen by running it.", "anchors": ["src/tests/r3d_unit_tests.c:test_split_nonconvex", "src/r3d.c:r3d_clip", "src/r3d.c:r3d_reduce"]}
{"id": "C81", "title": "Intersections of tetrahedra and triangles", "statement": "For two tetrahedra of positive volume: r3d_init_tet of the first, r3d_tet_faces_from_verts of the second, r3d_clip and r3d_reduce run without fault in a buffer of 17 vertices, leave at most 12 vertices, and give the integral of every monomial over the set of points that are mixtures of the vertices of the first and of the vertices of the second; exchanging the two gives the same moments. The same in 2D for two triangles, with a buffer of 7 vertices and at most 6 left. Each trial of test_tet_tet_timing and test_tri_tri_timing computes these moments, and the tests end normally, with a logarithm of zero, or by drawing random numbers for ever.", "quantifier": "for all pairs of non-degenerate simplices, all memory contents, all orders, every sqrt that is positive on positive numbers, all values of rand()", "why_tests_cant": "The timing tests check nothing; that the result is the integral over the intersection for all pairs cannot be tested.", "anchors": ["src/r3d.c:r3d_init_tet", "src/r3d.c:r3d_tet_faces_from_verts", "src/r3d.c:r3d_clip", "src/r3d.c:r3d_reduce", "src/r2d.c:r2d_init_poly", "src/r2d.c:r2d_poly_faces_from_verts", "src/r2d.c:r2d_clip", "src/tests/r3d_unit_tests.c:test_tet_tet_timing", "src/tests/r2d_unit_tests.c:test_tri_tri_timing"]}
{"id": "C82", "title": "The unit tests of rNd", "statement": "In exact arithmetic: test_moments of rNd never fails or warns. test_split_simplex_thru_centroid passes whenever the plane goes through no vertex of the simplex; more generally its checks (rNd_is_good of both parts, volumes that add up, neither part larger than the whole) hold for every simple convex polytope with volume and every plane through none of its vertices. test_recursive_splitting_nondegenerate never fails or warns, nor do its stacks or polys overflow, as long as no plane goes through a vertex; in four dimensions 495 vertices are enough. If the plane goes through vertices so that both volumes are NaN, the splitting test passes all the same, because no comparison with a NaN is true. test_nonconvex, which is not registered, never passes: rNd_orient changes sign when two vertices are exchanged and rNd_reduce does not.", "quantifier": "for all dimensions (at least 3 for the split), all values of rand(), all memory contents, all simple convex polytopes and planes in general position", "why_tests_cant": "A run of a test sees one sequence of random numbers, in one dimension, with rounding; a test that passes on NaN cannot tell that it did.", "anchors": ["src/tests/rNd_unit_tests.c:test_split_simplex_thru_centroid", "src/tests/rNd_unit_tests.c:test_recursive_splitting_nondegenerate", "src/tests/rNd_unit_tests.c:test_moments", "src/tests/rNd_unit_tests.c:test_nonconvex", "src/tests/test_helpers.c:rand_simplex_Nd", "src/tests/test_helpers.c:thru_cent_Nd", "src/tests/test_helpers.c:get_centroid_Nd", "src/rNd.c:rNd_clip", "src/rNd.c:rNd_reduce", "src/rNd.c:rNd_is_good", "src/rNd.c:rNd_orient"]}
{"id": "C83", "title": "The voxelization test of rNd", "statement": "In exact arithmetic test_voxelization of rNd passes unless the simplex is in special position with respect to the grid: the index box of the random simplex lies in the grid and is not empty, nvoxels does not overflow, 1001 vertices are enough in four dimensions, and the sum over the grid is the volume of the simplex. The part after the index box passes for every simple convex polytope in general position and every index box that is not empty, so the test does not depend on the index box being right.", "quantifier": "for all dimensions from 3 on (with 17^D below 2^31 for the test itself), all values of rand(), all memory contents, all simple convex polytopes in general position and index boxes", "why_tests_cant": "A run of the test sees one random simplex; neither the room in the buffers nor the products of ints for other simplices and dimensions are exercised.", "anchors": ["src/tests/rNd_unit_tests.c:test_voxelization", "src/tests/test_helpers.c:rand_simplex_Nd", "src/vNd.c:rNd_get_ibox", "src/vNd.c:rNd_voxelize", "src/rNd.c:rNd_reduce"]}
