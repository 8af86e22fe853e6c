#!/usr/bin/env python3
# regenerates properties.jsonl
import json
P=[]
def p(i,t,s,q,w,a): P.append(dict(id=i,title=t,statement=s,quantifier=q,why_tests_cant=w,anchors=a))
p("C01","r2d_clip keeps the polygon's links valid",
 "If every vertex of a polygon is doubly linked (next/prev indices in range and mutually inverse) and the vertex buffer has room, then r2d_clip terminates, never touches memory outside its buffers, and leaves every vertex doubly linked, whatever the rounding of the arithmetic does.",
 "every doubly linked polygon (any number of loops), every list of clip planes, every interpretation of +,*,/,< on coordinates (exact, floating, NaN)",
 "Tests sample a few random triangles; a bad link or an endless relinking walk may need a specific pattern of clipped vertices.",
 ["src/r2d.c:r2d_clip"])
p("C02","r2d_clip output lies in every half-plane",
 "After r2d_clip every remaining vertex satisfies n.x + d >= 0 for every plane it was clipped against, and is a convex combination of the input vertices.",
 "every polygon, every list of planes, exact arithmetic","Containment must hold for all planes at once, including later planes creating new vertices.",["src/r2d.c:r2d_clip"])
p("C03","r2d_clip computes the intersection",
 "A point off the clip lines is covered by the clipped polygon exactly as often (winding number) as by the input polygon if it is in all the half-planes, and not at all otherwise.",
 "every doubly linked polygon (convex, nonconvex, multiply connected, self-overlapping), every list of planes, every point off the clip lines, exact arithmetic",
 "Needs every polygon shape and every point; tests only compare areas of random triangles.",["src/r2d.c:r2d_clip"])
p("C04","r2d_clip leaves inside polygons alone and empties outside ones",
 "Clipping against a plane that has the whole polygon on its non-negative side returns exactly the same polygon; if every vertex is on or below the plane and at least one strictly below, the result has zero vertices; clipping an empty polygon or against no planes changes nothing.",
 "every polygon and plane","Equality of the whole structure for all inputs.",["src/r2d.c:r2d_clip"])
p("C05","Complementary r2d clips partition the moments",
 "Clipping a polygon against a plane and against the reversed plane gives two polygons whose moments (r2d_reduce, any order) add up to the moments of the original.",
 "every doubly linked polygon, every plane (also through vertices and edges), every polynomial order","The unit test samples random planes at order 2 with a tolerance.",["src/r2d.c:r2d_clip","src/r2d.c:r2d_reduce"])
p("C06","r2d_split splits without loss",
 "For each input polygon r2d_split produces two doubly linked polygons lying on opposite closed sides of the plane, whose coverage and moments add up to the input's; a polygon with no vertex strictly on one side is passed through unchanged and the other output is empty.",
 "every array of polygons, every plane","All plane/polygon configurations incl. degenerate ones, and all array positions.",["src/r2d.c:r2d_split"])
p("C07","r2d_split puts the positive side in out_pos",
 "out_pos receives the part of each polygon with n.x + d >= 0 and out_neg the part with n.x + d <= 0.",
 "every polygon and plane","The unit test only checks that the two parts add up, which is symmetric in the outputs.",["src/r2d.c:r2d_split","src/r2d.h:r2d_split"])
p("C08","2D clipping stays inside the 256-vertex buffer",
 "r2d_clip and r2d_split never write beyond R2D_MAX_VERTS vertices for any polygon that fits in the buffer.",
 "every polygon with at most R2D_MAX_VERTS vertices, every plane","Needs the worst-case polygon; overflow is silent.",["src/r2d.c:r2d_clip","src/r2d.c:r2d_split","src/r2d.h:R2D_MAX_VERTS"])
p("C09","r2d_reduce returns the exact moments",
 "moments[m] equals the integral of x^i y^j over the polygon (counted with winding number), with (i,j) in the documented row-major order, for every order; an empty polygon gives zeros.",
 "every doubly linked polygon, every polynomial order","Infinitely many orders and shapes.",["src/r2d.c:r2d_reduce"])
p("C10","SHIFT_POLY does not change 2D moments",
 "Compiling with SHIFT_POLY (translate to the vertex average, integrate, shift back) gives the same moments as without it.",
 "every doubly linked nonempty polygon, every order","Agreement for all orders and all centres.",["src/r2d.c:r2d_reduce","src/r2d.c:r2d_shift_moments","src/r2d.c:r2d_poly_center"])
p("C11","2D translate, scale, shear and affine act as documented",
 "Each call maps every vertex position by the documented transformation, leaves connectivity alone, and changes the area/moments accordingly.",
 "every polygon and parameter","All inputs.",["src/r2d.c:r2d_translate","src/r2d.c:r2d_scale","src/r2d.c:r2d_shear","src/r2d.c:r2d_affine"])
p("C12","r2d_rotate rotates",
 "r2d_rotate maps every vertex (x,y) to (x cos t - y sin t, x sin t + y cos t).",
 "every polygon and angle","No test calls it.",["src/r2d.c:r2d_rotate"])
p("C13","r2d_is_good decides its documented check",
 "r2d_is_good returns 1 exactly when every vertex has two valid edges, is pointed to by two other vertices and does not point to itself.",
 "every polygon buffer","All link patterns, including malformed ones.",["src/r2d.c:r2d_is_good"])
p("C14","2D initialisers build valid polygons",
 "r2d_init_box and r2d_init_poly produce doubly linked polygons that r2d_is_good accepts, with the given positions in counterclockwise order; the box has area (x1-x0)(y1-y0).",
 "every box and every vertex list with at least three vertices","All sizes.",["src/r2d.c:r2d_init_box","src/r2d.c:r2d_init_poly"])
p("C15","r2d_poly_faces_from_verts gives the edge half-planes",
 "The plane returned for each edge passes through both endpoints and is positive exactly on the left of the edge.",
 "every vertex list with nonzero edges","All vertex lists.",["src/r2d.c:r2d_poly_faces_from_verts"])
p("C16","r2d_box_faces_from_verts gives the box half-planes",
 "A point is on the non-negative side of all four planes exactly when it lies in the box.",
 "every box and point","No test uses it.",["src/r2d.c:r2d_box_faces_from_verts"])
p("C17","r2d_orient is the signed area",
 "r2d_orient is positive exactly for counterclockwise triangles, changes sign when two vertices are swapped, is translation invariant and equals the area that r2d_reduce reports for the triangle.",
 "every triangle","All triangles.",["src/r2d.c:r2d_orient"])
p("C18","r2d_rasterize conserves every moment",
 "The moments added to the destination grid, summed over all cells, equal the moments of the polygon.",
 "every doubly linked polygon, every grid box, spacing and order","All recursion shapes of the bisection.",["src/v2d.c:r2d_rasterize","src/v2d.c:r2d_split_coord"])
p("C19","r2d_rasterize is exact per cell",
 "What is added to a grid cell is the moment vector of the intersection of the polygon with that cell.",
 "every doubly linked polygon inside the index box, every cell","Every cell of every grid.",["src/v2d.c:r2d_rasterize","src/v2d.c:r2d_split_coord"])
p("C20","r2d_rasterize stays in bounds",
 "The work stack never exceeds its computed size and every write to dest_grid is inside the documented buffer; distinct (cell, moment) pairs use distinct slots; the loop terminates.",
 "every grid size","All grid sizes, not just up to 512^2.",["src/v2d.c:r2d_rasterize"])
p("C21","r2d_get_ibox is the minimal index box",
 "The returned index box covers every vertex and no smaller index box does.",
 "every nonempty polygon, positive spacing","All positions.",["src/v2d.c:r2d_get_ibox"])
p("C22","r2d_clamp_ibox clamps box and polygon together",
 "After the call the box is the intersection with clampbox (or empty together with the polygon), and the polygon is clipped to the clamp range in every direction where the box stuck out.",
 "every polygon, index box, clamp box","All overlap cases.",["src/v2d.c:r2d_clamp_ibox"])
p("C23","r3d_clip keeps the polyhedron graph valid",
 "For a polyhedron whose vertices have three distinct mutual neighbours, clipping against a plane terminates, stays in bounds, and yields a graph in which every link has a matching reverse link, whatever the arithmetic does.",
 "every such polyhedron, every plane, every arithmetic","All graphs and all clipped patterns.",["src/r3d.c:r3d_clip"])
p("C24","r3d_clip output lies in every half-space",
 "After a successful r3d_clip every vertex satisfies every clip plane and is a convex combination of input vertices.",
 "every polyhedron and list of planes, exact arithmetic","All inputs.",["src/r3d.c:r3d_clip"])
p("C25","r3d_clip computes the intersection",
 "A point off the clip plane is covered by the clipped polyhedron exactly as often as by the input if it is in the half-space and not at all otherwise.",
 "every polyhedron with planar faces, every plane, every point off the plane","All shapes and points.",["src/r3d.c:r3d_clip"])
p("C26","r3d_clip reports buffer exhaustion instead of overflowing",
 "r3d_clip and r3d_split never write past R3D_MAX_VERTS; they return 0 exactly when the buffer would be exceeded (or the polyhedron is empty, for r3d_clip) and 1 otherwise; on failure the caller's polyhedron is untouched.",
 "every polyhedron, plane list and buffer size","Needs full buffers.",["src/r3d.c:r3d_clip","src/r3d.c:r3d_split"])
p("C27","Complementary r3d clips and r3d_split conserve moments",
 "The moments of the two sides add up to the moments of the input.",
 "every polyhedron with planar faces, every plane, every order","All shapes.",["src/r3d.c:r3d_clip","src/r3d.c:r3d_split","src/r3d.c:r3d_reduce"])
p("C28","r3d_split splits by side",
 "out_pos[i] is the part of inpolys[i] in the non-negative half-space, out_neg[i] the part in the non-positive one; one-sided polyhedra are copied and the other output is zeroed.",
 "every array of polyhedra and plane","All inputs.",["src/r3d.c:r3d_split"])
p("C29","r3d_reduce returns the exact moments",
 "Every face is integrated exactly once and moments[m] equals the integral of x^i y^j z^k over the polyhedron in the documented order, for every order.",
 "every polyhedron with planar faces, every order","All graphs and orders.",["src/r3d.c:r3d_reduce"])
p("C30","SHIFT_POLY does not change 3D moments",
 "Integrating about the vertex average and shifting back gives the same moments as integrating directly.",
 "every closed polyhedron, every order","All orders.",["src/r3d.c:r3d_reduce","src/r3d.c:r3d_shift_moments"])
p("C31","3D rotate, translate, scale, shear and affine act as documented",
 "Each maps every position as documented and leaves connectivity alone; rotation preserves lengths.",
 "every polyhedron and parameter","All inputs.",["src/r3d.c:r3d_rotate","src/r3d.c:r3d_translate","src/r3d.c:r3d_scale","src/r3d.c:r3d_shear","src/r3d.c:r3d_affine"])
p("C32","r3d_is_good decides valid polyhedral graphs",
 "r3d_is_good returns 1 exactly when every vertex has three distinct valid edges, is pointed to by three vertices and every component is 3-vertex-connected; it stays in bounds.",
 "every polyhedron buffer","All graphs.",["src/r3d.c:r3d_is_good"])
p("C33","3D tet and box initialisers build valid polyhedra",
 "r3d_init_tet and r3d_init_box produce graphs that r3d_is_good accepts, with outward faces; their volume is r3d_orient resp. the product of side lengths.",
 "every tetrahedron and box","All positions.",["src/r3d.c:r3d_init_tet","src/r3d.c:r3d_init_box"])
p("C34","r3d_init_poly rebuilds the face structure",
 "For a trivalent polyhedron given by its oriented faces, the vertex graph built by r3d_init_poly has exactly the given faces.",
 "every oriented trivalent face list","All polyhedra.",["src/r3d.c:r3d_init_poly"])
p("C35","3D face-plane helpers give the supporting half-spaces",
 "r3d_box_faces_from_verts, r3d_tet_faces_from_verts and r3d_poly_faces_from_verts return planes containing their faces and non-negative exactly on the inner side.",
 "every box, tetrahedron, planar-faced polyhedron","All inputs.",["src/r3d.c:r3d_box_faces_from_verts","src/r3d.c:r3d_tet_faces_from_verts","src/r3d.c:r3d_poly_faces_from_verts"])
p("C36","r3d_orient is the signed volume",
 "r3d_orient is the signed tetrahedron volume: it changes sign under swaps, is translation invariant and agrees with r3d_reduce on r3d_init_tet.",
 "every four points","All points.",["src/r3d.c:r3d_orient"])
p("C37","r3d_voxelize conserves every moment",
 "The moments added to the grid, summed over all cells, equal the moments of the polyhedron.",
 "every polyhedron whose intermediate pieces stay valid, every grid","All grids.",["src/v3d.c:r3d_voxelize","src/v3d.c:r3d_split_coord"])
p("C38","r3d_voxelize stays in bounds",
 "The work stack never exceeds its computed size, every grid write is inside the documented buffer, distinct (cell, moment) pairs use distinct slots, and the loop terminates.",
 "every grid size","All sizes.",["src/v3d.c:r3d_voxelize"])
p("C39","3D index boxes",
 "r3d_get_ibox returns the minimal covering index box; r3d_clamp_ibox intersects it with the clamp box and clips the polyhedron accordingly.",
 "every polyhedron and box","All positions.",["src/v3d.c:r3d_get_ibox","src/v3d.c:r3d_clamp_ibox"])
p("C40","r3d_init_brep walks every face once",
 "The boundary representation lists every face of every component exactly once, with in-range vertex indices.",
 "every valid polyhedron","All graphs.",["src/r3d.c:r3d_init_brep"])
p("C41","rNd_orient is the signed simplex volume",
 "rNd_det equals the determinant of its matrix and rNd_orient equals det(v_i - v_0)/RND_DIM!.",
 "every matrix","All matrices.",["src/rNd.c:rNd_det","src/rNd.c:rNd_orient"])
p("C42","ND initialisers build valid graphs",
 "rNd_init_simplex and rNd_init_box give every vertex RND_DIM distinct neighbours, with symmetric links, at the documented positions.",
 "every simplex and box","All inputs.",["src/rNd.c:rNd_init_simplex","src/rNd.c:rNd_init_box"])
p("C43","rNd_affine applies the matrix",
 "rNd_affine maps each vertex by the homogeneous matrix, so the identity matrix changes nothing.",
 "every polytope and matrix","No test calls it.",["src/rNd.c:rNd_affine"])
p("C44","rNd_clamp_ibox stays in bounds",
 "rNd_clamp_ibox never writes outside its plane buffer.",
 "every index box and clamp box","Needs a box sticking out on all sides.",["src/vNd.c:rNd_clamp_ibox"])
p("C45","rNd_voxelize stays in bounds",
 "The work stack never exceeds its computed size and every grid write is inside the buffer, at distinct slots for distinct cells.",
 "every grid size","All sizes.",["src/vNd.c:rNd_voxelize"])
p("C46","rNd_rotate, rNd_translate, rNd_scale, rNd_shear act as documented",
 "Each maps every position as documented and leaves connectivity alone; rotation preserves lengths.",
 "every polytope and parameter","All inputs.",["src/rNd.c:rNd_rotate","src/rNd.c:rNd_translate","src/rNd.c:rNd_scale","src/rNd.c:rNd_shear"])
p("C47","rNd_get_ibox returns the minimal covering index box",
 "The returned index box covers every vertex and is contained in every index box that does.",
 "every polytope, dimension and positive spacing","All inputs.",["src/vNd.c:rNd_get_ibox"])
p("C48","rNd_clip keeps the structure of a simple polytope",
 "One cut keeps exactly the vertices that are not clipped, adds one vertex on each cut edge, and the result is again a simple polytope: every vertex on RND_DIM facets, neighbours share all but one, 2-face numbers consistent.",
 "every simple polytope, plane, dimension and arithmetic","All graphs and dimensions.",["src/rNd.c:rNd_clip"])
p("C49","rNd_clip computes the intersection with half-spaces",
 "The result of clipping a convex polytope is the set of its points inside all half-spaces, and can be clipped again. The buffer does not overflow if C(F+k,D) vertices fit, for F facets and k planes.",
 "every convex polytope and list of planes, special position included","All positions and dimensions.",["src/rNd.c:rNd_clip"])
p("C50","ND initialisers build the polytopes asked for",
 "rNd_init_simplex builds the convex hull of its points and rNd_init_box the points between its corners, as simple convex polytopes fit for rNd_clip.",
 "every simplex and box","All inputs and dimensions.",["src/rNd.c:rNd_init_simplex","src/rNd.c:rNd_init_box"])
p("C51","rNd_split splits at the plane",
 "The two outputs are the parts of the polytope on either side of the coordinate plane.",
 "every convex polytope, axis and coordinate","All inputs and dimensions.",["src/vNd.c:rNd_split"])
p("C52","rNd_reduce returns the volume",
 "The number that rNd_reduce computes is the volume of the polytope; for a simplex it is |det|/D!, for a box the product of the sides, after rNd_clip in general position the volume of the intersection.",
 "every simple convex polytope in every dimension","A sum over all flags of the polytope; tests can only compare examples whose volume is known.",["src/rNd.c:rNd_reduce","src/rNd.c:reduce_helper"])
p("C53","rNd_voxelize deposits the volume in each cell",
 "After rNd_voxelize, the entry of each cell has grown by the volume of the part of the polytope in the cell (cells at the border of the index box also collect what is outside), and the total by the volume of the polytope; no buffer overflows if C(F+2D+1,D) vertices fit, F being the number of planes.",
 "every simple convex polytope in general position, grid and index box, in every dimension from 3 on","All inputs and dimensions; exact volumes of pieces are not available to tests.",["src/vNd.c:rNd_voxelize","src/vNd.c:rNd_split","src/rNd.c:rNd_clip","src/rNd.c:rNd_reduce"])
p("C54","rNd_is_good decides valid polytope graphs",
 "rNd_is_good returns 1 exactly when every vertex has RND_DIM distinct valid edges, is pointed to by RND_DIM vertices and every component is RND_DIM-vertex-connected; it stays in bounds. It accepts the graph of every simple convex polytope (Balinski's theorem), in particular every result of rNd_clip.",
 "every polytope buffer, every dimension","All graphs.",["src/rNd.c:rNd_is_good"])
p("C55","r3d_init_poly splits vertices with more than three corners",
 "For every closed oriented surface whose corners at each vertex form one fan of at least three, r3d_init_poly returns 1 and builds a trivalent graph in which each vertex of n corners is a connected group of n-2 vertices at its position, with exactly the given faces; it is valid if the faces meet as those of a convex polyhedron. If the corners do not fit the buffer it returns 0.",
 "every oriented face list with corners in fans","All polyhedra, any number of corners per vertex; the loops re-link temporary copies in place.",["src/r3d.c:r3d_init_poly"])
p("C56","Convex polyhedra from face list to moments",
 "For the face list of every convex polyhedron that fits the buffer, r3d_init_poly builds a valid poly with flat faces that covers exactly the intersection of the face half-spaces, once; after any successful r3d_clip, r3d_reduce returns the integrals of the monomials over the intersection of the convex polyhedron with the half-spaces; and r3d_voxelize adds to each cell the integrals over the part of the convex polyhedron in the cell.",
 "every convex polyhedron given by its faces, every list of clip planes, every grid, every order","All convex polyhedra, any number of faces and corners.",["src/r3d.c:r3d_init_poly","src/r3d.c:r3d_clip","src/r3d.c:r3d_reduce","src/v3d.c:r3d_voxelize"])
p("C57","Convex polygons from corners to moments, without overflow",
 "A polygon that no line cuts more than twice, in particular every convex polygon, gains at most one vertex per clip plane and per split; r2d_clip, r2d_split and r2d_rasterize therefore never leave the vertex buffer if it has room for one vertex per plane and one more, for four more, and for one per level of subdivision and three more. From the corners of a convex polygon, r2d_init_poly, r2d_clip and r2d_reduce return the integrals over the intersection with the half-planes, and r2d_rasterize the integrals per cell, and none of the calls can fail. With room for one vertex only, every proper cut overruns the buffer.",
 "every convex polygon of any number of corners, every list of clip planes, every grid, every order","All convex polygons; the bound on the number of vertices is needed after every plane.",["src/r2d.c:r2d_clip","src/r2d.c:r2d_split","src/r2d.c:r2d_reduce","src/r2d.c:r2d_init_poly","src/v2d.c:r2d_rasterize"])
p("C58","Convex polyhedra from faces to moments, without overflow",
 "A convex polyhedron with three faces at every vertex gains at most two vertices per clip plane and per split, whatever the position of the planes; r3d_clip, r3d_split and r3d_voxelize therefore never run out of vertex buffer if V+2(m-1) vertices (m planes) need at most two thirds of it less two, or V+2(k-1) vertices (k levels of subdivision) at most half of it less two. From such a face list, a box or a tetrahedron, the initialiser, r3d_clip and r3d_reduce, or r3d_voxelize, all succeed and return the exact integrals of the monomials over the intersection; with 512 vertices a box can be clipped by any 167 planes, and boxes and tetrahedra be distributed over any grid of at most 2^31 cells per axis.",
 "every simple convex polyhedron, box and tetrahedron, every list of clip planes, every grid, every order","All polyhedra and planes, including planes through vertices and edges; the bound is needed after every plane.",["src/r3d.c:r3d_clip","src/r3d.c:r3d_init_box","src/r3d.c:r3d_init_tet","src/r3d.c:r3d_init_poly","src/r3d.c:r3d_reduce","src/r3d.c:r3d_split","src/v3d.c:r3d_voxelize"])
p("C59","Rounding errors of r2d_clip and r3d_clip",
 "If every operation rounds with relative error at most u (2^-53 for double), then after clipping against m planes no vertex violates one of the half-spaces by more than (6m+5)u (6m+6 in 3D) times |n|_1*M+|d|, where M bounds the coordinates, no coordinate exceeds (1+6mu)M, and every vertex is within 6muM of the convex hull of the poly.",
 "every rounding, every linked polygon or valid polyhedron, every list of planes with 30mu<=1","Bounds for all inputs and all rounding patterns; the cuts are decided by rounded distances, so the result need not be combinatorially that of exact arithmetic.",["src/r2d.c:r2d_clip","src/r3d.c:r3d_clip"])
p("C60","Rounding errors of r2d_reduce",
 "If every operation rounds with relative error at most u, the moment of order N of a polygon with n vertices in [-M,M]^2 differs from the integral by at most 4n(n+8N+18)u M^(N+2)/(N+2) without SHIFT_POLY, and by at most 8n((n+13)N+3n+34+(N+1)(N+2)/2) u 3^N M^(N+2) with it.",
 "every rounding, every linked polygon, every order","Bounds for all inputs, orders and rounding patterns.",["src/r2d.c:r2d_reduce","src/r2d.c:r2d_shift_moments"])
p("C61","Rounding errors of r3d_reduce",
 "If every operation rounds with relative error at most u, the moment of order N of a closed polyhedron with n vertices in [-M,M]^3, flat or not, differs from the sum of the moments of its fan tetrahedra (the integral, if the faces are flat) by at most 18n(3n+12N+27)u M^(N+3)/(N+3) without SHIFT_POLY, and by at most 48n((n+17)N+6n+51+(N+1)(N+2)(N+3)/6) u 3^N M^(N+3) with it.",
 "every rounding, every valid polyhedron, every order","Bounds for all inputs, orders and rounding patterns.",["src/r3d.c:r3d_reduce","src/r3d.c:r3d_shift_moments"])
p("C62","Rounding errors of r2d_clip followed by r2d_reduce",
 "If every operation rounds with relative error at most u <= 1/1000, clipping any doubly linked polygon with coordinates at most M against m lines (30 m u <= 1) in a buffer of V vertices gives, unless the buffer overflows, a polygon that differs from the exact intersection by an area of at most 320 m V u M^2 (the integral of the absolute difference of the winding numbers), wherever the lines lie; and the moment of order N that r2d_reduce computes from it differs from the integral over the exact intersection by at most (320 m + 4(V+8N+18)/(N+2)) V u (1.2 M)^(N+2) without SHIFT_POLY, and by at most (320 m + 8*3^N((V+13)N+3V+34+(N+1)(N+2)/2)) V u (1.2 M)^(N+2) with it.",
 "every rounding, every linked polygon, every list of lines, every order","Misclassified vertices change the links of the result; only an argument over all rounding patterns shows that the covered region still changes little.",["src/r2d.c:r2d_clip","src/r2d.c:r2d_reduce"])
p("C63","Rounding errors of r3d_clip followed by r3d_reduce",
 "If every operation rounds with relative error at most u <= 1/1000, clipping any valid polyhedron with coordinates at most M and faces flat up to eta against m planes (30 m u <= 1) in a buffer of V vertices gives, unless the buffer overflows, a valid polyhedron with faces flat up to eta + (40+5m) u 1.2 M, whose region differs from the exact intersection by a volume of at most V((150 m^2 + 7545 m + 5015) u (1.2 M)^3 + 59 (m+1) (1.2 M)^2 eta), wherever the planes lie; and the moment of order N that r3d_reduce computes from it differs from the integral over the exact intersection by at most (1.2 M)^N times that plus the error of r3d_reduce, with and without SHIFT_POLY.",
 "every rounding, every valid polyhedron with nearly flat faces, every list of planes, every order","Misclassified vertices change the links of the result and faces bend; only an argument over all rounding patterns shows that the region still changes little.",["src/r3d.c:r3d_clip","src/r3d.c:r3d_reduce"])
p("C64","Rounding errors of r3d_split and r3d_voxelize",
 "If every operation rounds with relative error at most u <= 1/1000 and the input is a valid polyhedron with coordinates at most M and faces flat up to eta in a buffer of V vertices: (a) both parts that a successful r3d_split returns are valid, have faces flat up to eta + 25 u M, and their regions differ from the parts of the polyhedron on the two sides of the plane by volumes of at most V(11450 u M^3 + 119 M^2 eta); (b) if r3d_voxelize returns, the entry of each cell for a moment of order N has grown by the integral over the part of the polyhedron in that cell (extended to infinity at the border of the box), up to V((150 m^2 + 7545 m + 5015) u (1.2 M)^(N+3) + 59 (m+1) eta (1.2 M)^(N+2)) plus the error of r3d_reduce and the rounding of the final addition, where m is the number of halvings from the index box to a cell and 30 m u <= 1; with and without SHIFT_POLY.",
 "every rounding, every valid polyhedron with nearly flat faces, every plane, every index box, spacing and order","A cell is reached through a sequence of rounded cuts with rounded grid planes, each of which may misclassify vertices; tests sample few of these sequences.",["src/r3d.c:r3d_split","src/v3d.c:r3d_voxelize","src/v3d.c:r3d_split_coord"])
p("C65","Rounding errors of r2d_split and r2d_rasterize",
 "If every operation rounds with relative error at most u <= 1/1000 and the input is a doubly linked polygon with coordinates at most M in a buffer of V vertices: (a) both parts that r2d_split returns are doubly linked, and their regions differ from the parts of the polygon on the two sides of the line by areas of at most 380 V u M^2; (b) if r2d_rasterize returns, the entry of each cell for a moment of order N has grown by the integral over the part of the polygon in that cell (extended to infinity at the border of the box), up to 380 m V u (1.2 M)^(N+2) plus the error of r2d_reduce and the rounding of the final addition, where m is the number of halvings from the index box to a cell and 30 m u <= 1; with and without SHIFT_POLY.",
 "every rounding, every doubly linked polygon, every line, every index box, spacing and order","A cell is reached through a sequence of rounded cuts at rounded grid lines, each of which may misclassify vertices; tests sample few of these sequences.",["src/r2d.c:r2d_split","src/v2d.c:r2d_rasterize","src/v2d.c:r2d_split_coord"])
p("C66","32-bit integers and the stack size in the grid routines",
 "With the C integer types: (a) for every poly, spacing, order and index box with 32-bit corners and extents, if the moment-count macro fits in 32 bits and the grid has at most 2^31 numbers (rNd: fewer than 2^31 cells), no integer expression of r2d_rasterize, r3d_voxelize, rNd_voxelize overflows and they do exactly what they do with unbounded integers, even if the library log2 that sizes the work stack has an error of 2^-33; (b) the limits are sharp: rNd_voxelize overflows for every non-empty polytope as soon as there are 2^31 cells, r2d_rasterize and r3d_voxelize for every poly inside a cell one of whose indices is 2^31 or more (for example the last cell of 512^3 cells with moments up to order 3); (c) the conversions to integers in the get_ibox routines are defined exactly if some index box with 32-bit corners covers the vertices, and never for an empty poly with spacing up to 1e20; (d) the clamp_ibox routines never overflow.",
 "every poly, arithmetic, index box, spacing, order and dimension","A grid of 2^31 numbers needs 16 GB; tests do not allocate it, and overflow in C shows no symptom of its own.",["src/v2d.c:r2d_rasterize","src/v3d.c:r3d_voxelize","src/vNd.c:rNd_voxelize","src/v2d.c:r2d_get_ibox","src/v3d.c:r3d_get_ibox","src/vNd.c:rNd_get_ibox","src/v2d.c:r2d_clamp_ibox"])
p("C67","The deprecated 2D rasterizer: exact, or it never returns",
 "For the version of deprecated/r2d.c without USE_TREE, in exact arithmetic, with positive grid spacing, order at most 2 and buffers as large as documented, r2d_rasterize_quad behaves as follows. (a) If every cell that has a corner inside each of the four half-planes also has a point inside all four, the call returns, all accesses are in bounds, and for every cell the stored moments are exactly the integrals of 1, x, y, x^2, y^2, xy over the part of the cell in the four half-planes; nothing else is written. (b) Otherwise the call never returns; this happens for a square of side sqrt(2) turned by 45 degrees. (c) Orders above 2 read outside r2d_num_moments.",
 "every grid size, spacing, four half-planes, previous buffer contents","Whether the clip loop ends depends on the position of the quadrilateral relative to single grid cells; a test that hits such a position hangs rather than fails, and the exactness claim is about integrals over all positions.",["deprecated/r2d.c:r2d_rasterize_quad","deprecated/r2d.c:r2d_clip_quad","deprecated/r2d.c:r2d_reduce","deprecated/r2d.c:r2du_init_box"])
p("C68","The tree version of the deprecated 2D rasterizer",
 "In exact arithmetic, for every grid with at least one row and one column, positive spacing, order at most 2: r2d_rasterize_quad of deprecated/r2d.c compiled with USE_TREE returns exactly what it returns without USE_TREE, and fails to return on the same inputs. treestack[128] is never overrun when the grid sizes fit in 32 bits, and its loop makes fewer than 2 n.i n.j iterations. With n.i = 0 and n.j = 1 the stack is overrun whenever the quadrilateral's sides separate the two grid points.",
 "every grid size, spacing, four half-planes, previous buffer contents","Agreement of two algorithms on all grids and quadrilaterals; the stack depth depends on the logarithm of the grid size and is not exercised by small tests.",["deprecated/r2d.c:r2d_rasterize_quad"])
p("C69","Convex polyhedra gain at most two vertices per plane, so the vertex buffer suffices",
"Let a polyhedron be made by r3d_init_box or r3d_init_tet (any arguments, also flat or inverted) and then by any sequence of r3d_clip, r3d_split, r3d_translate, r3d_scale (non-zero), r3d_shear and r3d_rotate, in exact arithmetic. Counting n = 8 or 4 and 2 for every plane, it has at most n vertices. r3d_clip by k more planes returns 1 if 3n + 6k <= 2*R3D_MAX_VERTS + 3 (so 167 planes fit after a box), r3d_split succeeds if 2n + 4 <= R3D_MAX_VERTS, and r3d_voxelize, whose splits have no check for room, stays inside its buffers if 2n + 4*(number of halvings) <= R3D_MAX_VERTS; with 512 vertices that holds for n <= 70 and every grid with int sides.",
"all boxes and tetrahedra, all sequences of operations, all planes, grids and orders",
"The worst cut over all polyhedra reachable by hundreds of planes cannot be found by trying; planes through vertices and flat polyhedra are cases of measure zero.",
["src/r3d.c:r3d_clip","src/r3d.c:r3d_split","src/v3d.c:r3d_voxelize","src/r3d.h:R3D_MAX_VERTS"])
p("C70","The deprecated 3D voxelizer is exact and always returns",
"For the version of deprecated/r3d.c without USE_TREE, in exact arithmetic, with positive grid spacing, order at most 2, buffers as large as documented and four planes none of which is the equation 0 = 0, r3d_voxelize_tet returns, all accesses (vertex buffer, edge marks, search stack, grid buffers) are in bounds, and for every cell the stored moments are exactly the integrals of 1, x, y, z, x^2, y^2, z^2, xy, yz, zx over the part of the cell in the four half-spaces; nothing else is written. Orders above 2 read outside r3d_num_moments.",
"every grid size, spacing, four half-spaces (also through grid points, parallel, or empty in common), previous buffer contents",
"The clipper and the reducer search a graph in a buffer that also holds dead vertices; whether the searches end and stay in the buffer, and whether cells that merely look cut give zero, depends on degenerate positions of the planes relative to grid points.",
["deprecated/r3d.c:r3d_voxelize_tet","deprecated/r3d.c:r3d_clip_tet","deprecated/r3d.c:r3d_reduce","deprecated/r3d.c:r3du_init_box"])
p("C71","The tree version of the deprecated 3D voxelizer agrees with the plain one",
 "r3d_voxelize_tet of deprecated/r3d.c compiled with USE_TREE stores, on every grid of positive sizes and spacing, the integrals over the part of each cell in the four half-spaces, without overrunning its stack of 128 nodes.",
 "all grid sizes and spacings, orders up to 2 and four half-spaces (exact arithmetic)",
 "The two versions agree on every cell that is wholly inside or outside and on symmetric inputs; the wrong order of the corners shows only in the cut cells of a build with USE_TREE.",
 ["deprecated/r3d.c:r3d_voxelize_tet","deprecated/r3d.c:r3d_treenode","deprecated/r3d.c:r3du_init_box"])
p("C72","The deprecated voxelizers conserve every moment of a tetrahedron or quadrilateral",
 "In exact arithmetic: (a) for every tetrahedron with positive r3du_orient the planes of r3du_tet_faces_from_verts make r3d_voxelize_tet (without USE_TREE) return, and each cell holds the integrals over the part of the cell in the convex hull of the four vertices; if the vertices lie in the box of the grid, the cells add up to the integrals over the tetrahedron, the volumes to r3du_orient. With negative r3du_orient zeros are stored. (b) For every convex quadrilateral with counterclockwise corners the planes of r2du_faces_from_verts make r2d_rasterize_quad, if it returns, store the integrals over the part of each cell in the convex hull of the corners, and the cells add up in the same way. (c) r2du_orient is minus the signed area (and minus r2d_orient): a quadrilateral for which it is positive gets zeros, or makes the rasterizer hang.",
 "all tetrahedra, convex quadrilaterals, grids, spacings and orders up to 2",
 "Conservation is a statement about all positions of the body relative to the grid; a test with an orientation convention of its own does not notice the sign.",
 ["deprecated/r3d.c:r3du_tet_faces_from_verts","deprecated/r3d.c:r3du_orient","deprecated/r3d.c:r3d_voxelize_tet","deprecated/r2d.c:r2du_faces_from_verts","deprecated/r2d.c:r2du_orient","deprecated/r2d.c:r2d_rasterize_quad"])
p("C73","Clipping and splitting in any dimension are accurate to a few rounding errors",
 "Let every floating-point operation have relative error at most u, no coordinate be larger than M, and all neighbours exist. (a) If rNd_clip returns, all neighbours of the result exist, no vertex of it is outside a half-space by more than (6m+3(D+1))u(|n|M+|d|) for m planes, and every vertex is within 6muM of the convex hull of the input, coordinate by coordinate. (b) For one plane and a simple polytope of dimension 3 or more rNd_clip returns in every arithmetic, if the buffer has room for D+1 times the vertices. (c) The two results of rNd_split lie on their sides of the splitting coordinate up to (4D+18)u(M+|coord|), and near the hull of the input.",
 "all dimensions, polytopes, planes and roundings",
 "Rounding errors accumulate over the planes; a test sees a few sequences and has no exact answer to compare with.",
 ["src/rNd.c:rNd_clip","src/vNd.c:rNd_split"])
p("C74","rNd_reduce is unstable for vertices that nearly coincide",
 "In every dimension D >= 2 and for every eps > 0 there is a simple convex polytope of size 2 and volume at most 1/2+eps, for which rNd_reduce returns the volume, and a way of moving its vertices by at most eps, inside the polytope and with linearly independent edges at each vertex, so that rNd_reduce returns at least 1-eps, in exact arithmetic with exact square roots. So no bound on the errors of the positions, such as C73, bounds the error of the volume.",
 "all dimensions and all eps",
 "Needs two vertices within rounding errors of each other whose connecting line comes out in a wrong direction; on well separated vertices the function is accurate.",
 ["src/rNd.c:rNd_reduce","src/rNd.c:reduce_helper"])
p("C75","Breps neither leak nor corrupt memory",
"For every valid polyhedron with at least one vertex and an unused vertex in its buffer, every heap and every content of uninitialised memory: r3d_init_brep reads and writes only inside live blocks it allocated itself; r3d_print_brep then prints, per connected component, the vertices and every face once; r3d_free_brep frees every block exactly once, also when other blocks have been allocated, freed or changed meanwhile; afterwards the heap is what it was before.",
"for all valid polyhedra, all numbers of components (the array of breps grows by realloc), all heaps, all contents of fresh memory",
"A leak or a double free shows only with the right tool and the right input; the array is moved only from three components on, which no test builds.",
["src/r3d.c:r3d_init_brep","src/r3d.c:r3d_print_brep","src/r3d.c:r3d_free_brep"])
p("C76","The recursive splitting tests of r3d cannot fail",
"For every sequence of values of rand(), every content of uninitialised memory, every non-negative function in place of sqrt and every function in place of log and cos: in exact arithmetic test_recursive_splitting_degenerate and test_recursive_splitting_degenerate_perturbed of r3d_unit_tests.c (10 tetrahedra, up to 2^17-1 splits each) end with PASS, with a logarithm of zero, or by drawing random numbers for ever; no assertion fails, no expectation is off, the stack of 64 polys and the vertex buffer suffice. The same holds of test_recursive_splitting_nondegenerate unless a random normal vector is zero, which with the true log and cos takes three times RAND_MAX; then it fails. rand_tet_3d returns the signed volume of its tetrahedron, at least the minimum asked for; the planes of the six thru_* helpers contain the vertices, edges, faces and centroids they are named after.",
"for all values of rand(), all memory contents, both settings of SHIFT_POLY, all buffers of at least 56 vertices",
"The statement is about the tests themselves: running them shows one sequence of random numbers.",
["src/tests/r3d_unit_tests.c:test_recursive_splitting_nondegenerate","src/tests/r3d_unit_tests.c:test_recursive_splitting_degenerate","src/tests/r3d_unit_tests.c:test_recursive_splitting_degenerate_perturbed","src/tests/test_helpers.c:rand_tet_3d","src/tests/test_helpers.c:thru_face_3d","src/tests/test_helpers.c:point_plane_3d"])
p("C77","The recursive splitting tests of r2d cannot fail",
"For every sequence of values of rand(), every content of uninitialised memory, every non-negative function in place of sqrt and every function in place of log and cos: in exact arithmetic test_recursive_splitting_degenerate, its perturbed version and, unless a random normal vector is zero, test_recursive_splitting_nondegenerate of r2d_unit_tests.c (100 triangles, up to 2^17-1 splits each) end with PASS, with a logarithm of zero, or by drawing random numbers for ever. test_random_verts, which splits a tangled polygon, passes if the vertex buffer is large enough. rand_tri_2d returns the signed area of its triangle, at least the minimum asked for; the lines of thru_edge_2d and thru_vert_rand_2d contain the edges and vertices they are named after; those of thru_cent_2d and thru_vert_cent_2d contain the mean of the vertices.",
"for all values of rand(), all memory contents, both settings of SHIFT_POLY, all buffers of at least 21 vertices; test_random_verts for all numbers of vertices and depths up to 62",
"The statement is about the tests themselves: running them shows one sequence of random numbers. The wrong centroid goes unnoticed because the sums agree for any line.",
["src/tests/r2d_unit_tests.c:test_recursive_splitting_nondegenerate","src/tests/r2d_unit_tests.c:test_recursive_splitting_degenerate","src/tests/r2d_unit_tests.c:test_recursive_splitting_degenerate_perturbed","src/tests/r2d_unit_tests.c:test_random_verts","src/tests/test_helpers.c:get_centroid_2d","src/tests/test_helpers.c:rand_tri_2d","src/tests/test_helpers.c:thru_edge_2d"])

p("C78","Splitting leaves both parts in the input, and the splitting tests compare against that",
"r3d_split and r2d_split leave in inpolys[i], documented as [in], a copy of out_pos[i] and, on other vertices, a copy of out_neg[i], and nothing else; the poly is untouched if it lies on one side of the plane and otherwise grows by two vertices for every edge across the plane, without exceeding the buffer. It describes the same solid (off the plane) and has the same moments as the original. test_split_tets_thru_centroid and test_split_tris_thru_centroid cannot fail in exact arithmetic; what they compare is true of any two closed polys in one buffer.",
"for all arrays of closed polys, all planes, all output and scratch contents; the tests for all values of rand() and all memory contents",
"Only a particular call is seen to change its input; that the test is blind to where the cut is made concerns every wrong program with the same links.",
["src/r3d.c:r3d_split","src/r2d.c:r2d_split","src/tests/r3d_unit_tests.c:test_split_tets_thru_centroid","src/tests/r2d_unit_tests.c:test_split_tris_thru_centroid"])

p("C79","The tests of moments, voxelization and rasterization cannot fail",
"r3d_reduce and r2d_reduce of an axis-aligned box give the product of (hi^(n+1)-lo^(n+1))/(n+1) over the axes for every moment of every order; test_moments in 3D and 2D ends with PASS in exact arithmetic. For every sequence of values of rand(), every content of uninitialised memory, every sqrt that is not too small, exact floor and ceil: test_voxelization and test_rasterization end with PASS, with a logarithm of zero, or by drawing random numbers for ever; the index box is never empty, the size passed to calloc is an int and the size of the grid, and no read is outside the grid. The part of these tests after r3d_get_ibox and r2d_get_ibox passes with every non-empty index box.",
"for all values of rand(), all memory contents, both settings of SHIFT_POLY, all buffers of at least 68 (16) vertices; box moments for all boxes and orders",
"The statement is about the tests themselves: running them shows one sequence of random numbers, and that a test is blind to a wrong index box is not seen by running it.",
["src/tests/r3d_unit_tests.c:test_moments","src/tests/r3d_unit_tests.c:test_voxelization","src/tests/r2d_unit_tests.c:test_moments","src/tests/r2d_unit_tests.c:test_rasterization","src/r3d.c:r3d_init_box","src/r3d.c:r3d_reduce"])

p("C80","Splitting the non-convex polyhedron of the unit tests cannot fail",
"The polyhedron that test_split_nonconvex builds by hand is valid with planar faces, covers once exactly the points between a zig-zag and the same zig-zag moved up by ZOFF, and is not convex; test_split_nonconvex ends with PASS and without warnings in exact arithmetic, for every positive ZOFF. The checks of the test pass for every valid polyhedron with planar faces, convex or not, whose covering number is nowhere negative, and for every plane; with a negative ZOFF the test fails.",
"for all memory contents, all ZOFF > 0, both settings of SHIFT_POLY, all buffers of at least 48 vertices; the checks for all polyhedra and planes",
"The test has one polyhedron and three planes; that every other non-convex polyhedron would pass as well is not seen by running it.",
["src/tests/r3d_unit_tests.c:test_split_nonconvex","src/r3d.c:r3d_clip","src/r3d.c:r3d_reduce"])
p("C81","Intersections of tetrahedra and triangles",
"For two tetrahedra of positive volume: r3d_init_tet of the first, r3d_tet_faces_from_verts of the second, r3d_clip and r3d_reduce run without fault in a buffer of 17 vertices, leave at most 12 vertices, and give the integral of every monomial over the set of points that are mixtures of the vertices of the first and of the vertices of the second; exchanging the two gives the same moments. The same in 2D for two triangles, with a buffer of 7 vertices and at most 6 left. Each trial of test_tet_tet_timing and test_tri_tri_timing computes these moments, and the tests end normally, with a logarithm of zero, or by drawing random numbers for ever.",
"for all pairs of non-degenerate simplices, all memory contents, all orders, every sqrt that is positive on positive numbers, all values of rand()",
"The timing tests check nothing; that the result is the integral over the intersection for all pairs cannot be tested.",
["src/r3d.c:r3d_init_tet","src/r3d.c:r3d_tet_faces_from_verts","src/r3d.c:r3d_clip","src/r3d.c:r3d_reduce","src/r2d.c:r2d_init_poly","src/r2d.c:r2d_poly_faces_from_verts","src/r2d.c:r2d_clip","src/tests/r3d_unit_tests.c:test_tet_tet_timing","src/tests/r2d_unit_tests.c:test_tri_tri_timing"])

p("C82","The unit tests of rNd",
"In exact arithmetic: test_moments of rNd never fails or warns. test_split_simplex_thru_centroid passes whenever the plane goes through no vertex of the simplex; more generally its checks (rNd_is_good of both parts, volumes that add up, neither part larger than the whole) hold for every simple convex polytope with volume and every plane through none of its vertices. test_recursive_splitting_nondegenerate never fails or warns, nor do its stacks or polys overflow, as long as no plane goes through a vertex; in four dimensions 495 vertices are enough. If the plane goes through vertices so that both volumes are NaN, the splitting test passes all the same, because no comparison with a NaN is true. test_nonconvex, which is not registered, never passes: rNd_orient changes sign when two vertices are exchanged and rNd_reduce does not.",
"for all dimensions (at least 3 for the split), all values of rand(), all memory contents, all simple convex polytopes and planes in general position",
"A run of a test sees one sequence of random numbers, in one dimension, with rounding; a test that passes on NaN cannot tell that it did.",
["src/tests/rNd_unit_tests.c:test_split_simplex_thru_centroid","src/tests/rNd_unit_tests.c:test_recursive_splitting_nondegenerate","src/tests/rNd_unit_tests.c:test_moments","src/tests/rNd_unit_tests.c:test_nonconvex","src/tests/test_helpers.c:rand_simplex_Nd","src/tests/test_helpers.c:thru_cent_Nd","src/tests/test_helpers.c:get_centroid_Nd","src/rNd.c:rNd_clip","src/rNd.c:rNd_reduce","src/rNd.c:rNd_is_good","src/rNd.c:rNd_orient"])

p("C83","The voxelization test of rNd",
"In exact arithmetic test_voxelization of rNd passes unless the simplex is in special position with respect to the grid: the index box of the random simplex lies in the grid and is not empty, nvoxels does not overflow, 1001 vertices are enough in four dimensions, and the sum over the grid is the volume of the simplex. The part after the index box passes for every simple convex polytope in general position and every index box that is not empty, so the test does not depend on the index box being right.",
"for all dimensions from 3 on (with 17^D below 2^31 for the test itself), all values of rand(), all memory contents, all simple convex polytopes in general position and index boxes",
"A run of the test sees one random simplex; neither the room in the buffers nor the products of ints for other simplices and dimensions are exercised.",
["src/tests/rNd_unit_tests.c:test_voxelization","src/tests/test_helpers.c:rand_simplex_Nd","src/vNd.c:rNd_get_ibox","src/vNd.c:rNd_voxelize","src/rNd.c:rNd_reduce"])
with open('/verif/properties.jsonl','w') as f:
    for x in P: f.write(json.dumps(x)+"\n")
