# Formal model of devonmpowell/r3d in Lean 4

## 1. Approach

* The C functions are modelled one by one as total, computable Lean functions
  (`lean/Verif/*.lean`, `lean/Verif/{R2D,R3D,RND,Dep,Test}`).  Every definition cites file and lines.
* **Undefined behaviour and non-termination are outcomes.**  Functions that index
  buffers return `C α = Except Fault α`; `Fault.oob` is an access outside a buffer
  (vertex buffer size is a parameter `maxv`), `Fault.diverge` is a `do/while` walk that
  made more steps than it has states (so the C loop would run forever).
  Theorems of the form `∃ q, r2dClip … = .ok q ∧ …` therefore include memory safety and
  termination.
* **Numbers.**  Structural theorems (connectivity, bounds, termination) are stated for an
  *arbitrary* type `K` with arbitrary operations `+ - * / <` satisfying no laws, so they hold
  for IEEE doubles, NaN included.  Geometric theorems are about an arbitrary linearly ordered
  field (exact arithmetic); integral theorems are over `ℝ`.  Rounding errors (C59 on) are
  bounded by running the same model functions on the numbers `Fl ρ` of a floating-point
  arithmetic (`Spec/Float.lean`): every operation is exact up to a relative error `u`
  (the standard model; `u = 2⁻⁵³` for `double`).  Overflow, underflow and contraction to fused
  multiply-add are not modelled; `pow(x, n)` is repeated multiplication.
* `int32` indices are modelled by `Nat`/`Int`; bounds theorems give the range that has to fit.
  `Int32.lean` has versions of the grid routines that check every product and sum for overflow (C66), and the
  tests do so for the sizes they pass to `calloc` (C79, C83).
* Buffers are functions `Nat → Vert`; contents beyond `nverts` are arbitrary garbage, and
  the theorems hold for every garbage.

## 2. Specification vocabulary (`lean/Verif/Spec`)

* *Doubly linked* (2D): next/prev in range and mutually inverse.
* *Winding number* (2D): signed number of polygon edges crossed by the vertical upward ray
  from a point.
* *Cover number* (3D, `cover3`): sum of the winding numbers of the vertical projections of the faces
  below the point.  Interior points of a box have 1, outside points 0
  (`cover3_box_inside`, `cover3_box_outside`); a poly covers nothing outside a half-space that
  contains its vertices (`cover3_outside`).
* *Region with faces that are not flat* (3D, `fanCover`): every face is replaced by the triangles that join
  its sides to one of its vertices; the triangles below the point are counted.  With flat faces it is
  the cover number (`C63_fanCover_flat`).
* *Moments*: Lebesgue integral of (winding number × monomial) in 2D, (cover number × monomial) in
  3D (`moment3`).

## 3. Plan per property

| id | model | proof idea |
|----|-------|-----------|
| C01 | r2d_clip on link buffers, lawless arithmetic | loop invariants; walk lemma for permutations |
| C02 | same, ordered field | new vertices are convex combinations on the plane |
| C03 | same | edge functionals additive on collinear points; half-plane lemma for winding |
| C04 | same | direct |
| C05 | r2d_clip + r2d_reduce | C03-style edge-sum formula + C09 |
| C06, C07 | r2d_split | two-sided version of the same invariants; C07 is false of the code: negation proved |
| C08 | r2d_clip with maxv=256 | bound 2*nverts proved; overflow witness proved (false of the code) |
| C09 | r2d_reduce loops | closed form of the Koehl recursion; integral over simplices |
| C10 | SHIFT_POLY variant, r2d_shift_moments | binomial shift of integrals |
| C11, C12 | transformations | direct; C12 false of the code: negation proved |
| C13 | r2d_is_good | counting lemma; documented check not fully implemented: witness |
| C14, C17 | initialisers, orient | direct |
| C15, C16 | face helpers | algebra over ℝ; C16 false of the code: negation proved |
| C18, C19, C20 | r2d_rasterize, r2d_split_coord | induction on the box; stack depth measure |
| C21, C22 | ibox helpers | floor/ceil lemmas |
| C23, C24, C26 | r3d_clip, r3d_split | same plan on darts (half-edges) |
| C25, C28 | same | sums over darts of face functions before and after a cut differ by terms on the plane; both sides cancel there; a poly covers nothing outside a half-space |
| C29, C30 | r3d_reduce, r3d_shift_moments | the face walk visits each side once (`FanOf`); generating polynomial of the Koehl recursion; vertical integration of the cover number |
| C27 | + r3d_clip, r3d_split | covers add up off a null set (C25, C28), then C29 |
| C31, C33, C35, C36 | 3D helpers | algebra; face walks of the two model graphs by `decide` |
| C32 | r3d_is_good | flood fill marks exactly what is reachable; a component is left by no link iff entered by none (degrees); faces cross an edge cut, so `Valid3` graphs are 3-connected |
| C34 | r3d_init_poly (both branches modelled) | trivalent branch: after each corner the neighbour lists are a rotation of the corners met so far; then faces of the graph = faces of the list |
| C40 | r3d_init_brep | marked darts are a union of whole faces; false for empty polys and full buffers (witness: all of them); `C40_roundtrip`: it undoes `r3d_init_poly` |
| C37–C39 | r3d_voxelize, r3d_split_coord, r3d_get_ibox, r3d_clamp_ibox | the generic work-loop theorem of the 2D rasterizer, with covers instead of winding numbers; C39 false when the clip runs out of buffer |
| C41 | rNd_det, rNd_orient | Heap's algorithm runs through every permutation once, with the sign kept up to date; then the Leibniz formula. The sign and the volume of simplices follow, in any dimension |
| C42 | rNd_init_simplex, rNd_init_box | loop invariants; slots by modular and bit arithmetic; 2-face numbers counted by the set of triples met so far |
| C43 | rNd_affine | false of the code: what it computes instead, witness, and the matrices for which it is right |
| C46 | rNd_rotate, rNd_translate, rNd_scale, rNd_shear | direct, any dimension |
| C44 | rNd_clamp_ibox | the number of planes is the number of sides that stick out; false for more than six |
| C45 | rNd_voxelize, rNd_split (+ rNd_clip, rNd_reduce modelled) | the generic work-loop theorem with faults of the callees passed through; sum of the logarithms of the sides against the logarithm of the product; row-major numbers by induction on the dimension |
| C47 | rNd_get_ibox | the same generic theorem as C21, C39 |
| C48 | rNd_clip | a labelling of the facets determines links and 2-face numbers; loop invariants for insertion; the closing walk stays in the 2-face until it meets the other new vertex |
| C49 | same | the labelling of the result is that of the cut polytope; in special position the planes are pushed out a little and the limit is taken (`LimitN`); a vertex is told by the labels of its D facets, which bounds the room (`Proofs/RoomN.lean`) |
| C50 | rNd_init_simplex, rNd_init_box | explicit facets; barycentric coordinates |
| C51 | rNd_split | C49 for the two half-spaces |
| C52 | rNd_reduce, reduce_helper | the recursion is a sum over the flags of each vertex of products of Gram-Schmidt directions (`slotSum`); these directions are the facet normals inside each face; a face is the union of the cones over its facets (`volume_facets`), so the flag sum of a face is its volume by induction on the dimension |
| C53 | rNd_voxelize | C49 and C52 along the tree of splits; a vertex of a piece lies on D of the planes of the polytope and the sides of its box, which bounds their number |
| C54 | rNd_is_good | the shared flood-fill lemmas of C32; the odometer over (D-1)-tuples visits every set of D-1 vertices; Balinski's theorem for simple convex polytopes, by pushing a linear functional through the removed vertices |
| C55 | r3d_init_poly, general branch | the corners of the list with the maps to the next corner at the vertex and across the edge (`Dups`); invariants for the ring, pair and drop loops in these terms; the walk around a face from one edge to the next stays inside one group |
| C56 | r3d_init_poly, r3d_clip, r3d_reduce, r3d_voxelize together | winding number of a convex polygon: the lowest of the upper lines over the point carries the only side that crosses the ray; the same argument one dimension up: of the lower faces only the one with the highest plane winds around the point; all crossings cancel, so there is a lower face if there is an upper one; points outside by a separating face plane; sums over the poly are sums over the list because darts inside a group have no length |
| C57 | r2d_init_poly, r2d_clip, r2d_split, r2d_reduce, r2d_rasterize together | signs along the cycle of vertices do not alternate four times: for convex polygons because the diagonals of a quadrilateral cross; kept by a cut because every sign along the cut polygon is found, in the same order, along the polygon; so a cut removes at least one vertex and adds two; moments from C03, C09, C19 and the winding number of a convex polygon (C56) |
| C58 | r3d_init_poly, r3d_init_box, r3d_init_tet, r3d_clip, r3d_split, r3d_reduce, r3d_voxelize together | `Limit3`: the graph is that of a simple convex polyhedron of which the positions are a limit (C49 in dimension 3); this is kept by clip and split, degenerate planes included; the vertices cut away form a connected part of the graph, so r of them have at most r+2 edges to the rest and a cut adds at most two vertices; moments from C56. Face lists with more than three faces at a vertex are not covered: the tree that r3d_init_poly puts there is not shown to be the limit of a simple polyhedron, so for them the clip is only known to be exact if it reports success (C56) |
| C59 | r2d_clip, r3d_clip on `Fl ρ` | forward errors of the distances and of the weighted average; a vertex that is cut off or kept on the wrong side is within a few roundings of the plane; new vertices are near convex combinations of old ones, so all convex sets that contain the poly nearly contain the result; induction over the planes |
| C60 | r2d_reduce on `Fl ρ` | counting roundings: `Appr u k a x B` says that `a` has at most `k` rounding factors relative to the bound `B` of `x`; closed form of the Koehl recursion in each arithmetic, exact value from C09 |
| C61 | r3d_reduce on `Fl ρ` | as C60; the face walk makes at most 3n triangles (`FanOf.length_le`); exact value from C29 |
| C62 | r2d_clip, r2d_reduce on `Fl ρ` | backward error: the computed result of one line has the links of the exact result for a polygon whose vertices are moved until their exact distances are the computed ones (`CutOut2.repos`, `fclip_backward`); moving the vertices of a polygon by ε changes the covered area by at most 4nMε (`winding_L1`, quadrilaterals between old and new edges); then C60 |
| C63 | r3d_clip, r3d_reduce on `Fl ρ` | region inside the surface of triangles that join the sides of each face to a tip (`surf`, `fanCover`), so that faces need not be flat; it is a sum of tetrahedra, hence moving vertices by ε or tips along nearly flat faces changes it by at most O(nM²ε) (`surf_move_bound`, `surf_relabel_bound`); backward error as in C62, with tips chosen on the cutting plane so that the exact cut of the moved surface is exact (`surf_cut`); induction on the planes keeps track of how flat the faces are (`NearFlat`); then C61 |
| C64 | r3d_split, r3d_voxelize on `Fl ρ` | one cut as in C63, for both outputs and for the distances to rounded grid planes (`fcut3_volume`, `split3_volume`); invariant along the path of the recursion to a cell: the piece covers the part of the original polyhedron in the box of cells, up to a volume that grows with the number of halvings (`VoxInv`, `VTree.path`); then C61 and the rounding of the final `+=` |
| C65 | r2d_split, r2d_rasterize on `Fl ρ` | the two computed parts are the exact parts of a nearby polygon, moved a little (`split2_backward`: positions are shifted so that the computed distances become exact, lines far away are decided correctly); areas by `winding_L1`; invariant along the path of the recursion to a cell (`RasInv`, `VTree.path`); then C60 and the rounding of the final `+=` |
| C66 | r2d_rasterize, r3d_voxelize, rNd_voxelize, the get_ibox and clamp_ibox routines with 32-bit integers (`Verif/Int32.lean`) | each integer expression is checked (`i32`) and the stack size comes from an inexact `log2` (`LogAcc`); since `2^x ≤ 1 + x`, an error of `2^-33` never makes the stack too small (`clog_le_ceil_log`); the index boxes on the stack stay inside the box given, so the checked loop equals the unchecked one (`voxLoop32_eq`) and all theorems about the unchecked models carry over; conversely a poly inside one cell is carried down to that cell whole, where the index overflows (`voxLoop32_overflow`) |
| C67 | r2d_rasterize_quad of deprecated/r2d.c without USE_TREE, with its r2d_clip_quad, r2d_reduce and r2du_init_box (`Verif/Dep/R2D.lean`) | the vertices met by a walk from any vertex are a ring (`RingQ`); one face either leaves the ring alone, replaces the run of vertices outside by two new ones (`clipFaceQ_cut`), or finds every vertex outside and runs its search loop forever (`clipFaceQ_diverge`); the invariant `InvQ` carries positions, distances to the later faces, and the winding numbers to the last face; a.e. the winding number of the clipped pixel is the indicator of the region, and moving the moments to the origin is the substitution in the integral (`shift_integral`); a search loop runs forever exactly if the cell has a corner in each open half-plane and no point in all four |
| C68 | r2d_rasterize_quad of deprecated/r2d.c with USE_TREE (`Verif/Dep/R2DTree.lean`) | the node on top of the stack is worked off without touching the nodes below (`treeTop`, induction on its size); an affine function on a rectangle takes its extrema at corners, so a node wholly inside has all its cells inside and a node outside a face has no touched cell; a node needs at most `1 + ⌈log₂ ioff⌉ + ⌈log₂ joff⌉` places of the stack and `2·ioff·joff - 1` iterations; every cell reached is treated as in C67 |
| C69 | r3d_clip, r3d_split, r3d_voxelize on polyhedra made from r3d_init_box / r3d_init_tet by clipping, splitting, translating, scaling, shearing and rotating (`Built3`) | `Simple3` (a simple convex polyhedron: at each vertex the three face planes are coordinates) is kept by a plane that misses the vertices (`Simple3.cut`); on such a polyhedron every vertex but the lowest has a lower neighbour, so the darts inside each side number at least twice its vertices less two and at most half the vertices plus two edges are cut (`Simple3.cut_count`); planes through vertices and flat or inverted boxes and tetrahedra by passing to the limit (`NearSimple3`). A second, direct proof of the counts of C58 (which goes through the N-dimensional model), extended to inverted boxes, to moved polyhedra and to any sequence of calls |
| C70 | r3d_voxelize_tet of deprecated/r3d.c without USE_TREE, with its r3d_clip_tet, r3d_reduce and r3du_init_box (`Verif/Dep/R3D.lean`) | the buffer keeps dead vertices, so the live ones are compared with a poly `q` numbered from 0 (`EmbT`); one face of the clip gives a `CutOut3` of `q` (`clipFaceT_spec`), hence the cover numbers of the part inside, including planes through vertices; the polyhedra are limits of simple convex ones (`NearSimple3`, from C69), so they stay connected and have at most 16 vertices; the search of r3d_reduce visits every half-edge of the connected graph once and sums a fan per face (`reduceT_spec`), which `momD_eq` (C29) turns into integrals; then translation of integrals, and the convex hull of the eight corners for cells wholly in or out |
| C71 | r3d_voxelize_tet of deprecated/r3d.c with USE_TREE (`Verif/Dep/R3DTree.lean`) | as C68, with the order in which the corners of a node are given to the vertices of the voxel as a parameter; false for the order in the code (`C71_tree_wrong`: for planes parallel to the x axis the orientations are those of the mirror image, so C70's cell theorem gives what is computed instead); with the right order equal to C70 (`C71_right_order`) |
| C72 | r3du_tet_faces_from_verts, r3du_orient, r2du_faces_from_verts, r2du_orient (`Verif/Dep/Util.lean`) with C67 and C70 | each plane is a determinant divided by a positive number, so the planes are non-negative exactly on the convex hull; the cells of a grid cover its box and overlap in null sets (`Proofs/DepGridSum.lean`), so the integrals of C67 and C70 add up; the total volume by C58 and C33, the total area by C57 and C14 |
| C73 | rNd_clip, rNd_split in floating-point arithmetic | what a run that returns implies, without any assumption on the links (`Proofs/ClipOkN.lean`): every vertex of the result is an old vertex that was not clipped or an interpolation of an old one that was clipped and one that was not, and all neighbours are in range; then as in C59 each plane adds a few rounding errors (`Proofs/FloatClipN.lean`) |
| C74 | rNd_reduce on nearly coincident vertices | closed form of what a vertex adds when two of its edges lie in the plane of two axes and the others are parallel to the other axes (`Proofs/PrismN.lean`, from the recursion of C52); evaluated for the prism over a quadrilateral two corners of which are δ apart |
| C75 | memory of breps | `r3d_init_brep` with a heap (`Verif/R3D/BrepHeap.lean`): `malloc` returns a new block with arbitrary contents, `realloc` moves, `free` needs a live block, every access is checked against the size of its block.  The heap version follows the list version of C40 step by step (`Proofs/BrepHeap.lean`); every component owns its blocks, the owned blocks are distinct and all other new blocks are dead, so `r3d_print_brep` prints the list and `r3d_free_brep` restores the heap |
| C76 | the tests of r3d | The test driver (`Verif/Test/Utest.lean`), the random helpers and the recursive splitting loop with its explicit stack (`Test/Split.lean`, `Test/Tests3.lean`) are modelled with `rand()` as an arbitrary sequence, `sqrt`, `log`, `cos` as arbitrary functions and uninitialised memory as arbitrary values that depend on the number of the call. A `do`-`while` that draws random numbers until they fit has `env.tries` tries and then stops with `stuck`; `log(0)` stops with `nonfinite`. `Proofs/SplitTest.lean` is a Hoare logic for tests that do not complain and proves the loop for any kind of poly from what one split does: the stack holds at most one poly per depth, except for two of the deepest. `Proofs/Tests3.lean` supplies the split from C27, C33, C36 and C69. Examples run whole trials over `ℚ` in the kernel. |
| C77 | the tests of r2d | The 2D helpers and tests (`Test/Tests2.lean`) on the same loop as C76; the invariant is a polygon that no line cuts more than twice (C57) with a non-negative winding number and positive area, and for `test_random_verts` just a doubly linked polygon with room to double at every further split. |
| C78 | what split leaves in its input | `Proofs/Both.lean` and `SplitBoth.lean` follow the traversal of `split2`/`split3` once more, for the input buffer: every vertex is copied to one part, so the buffer holds both parts on disjoint vertices (`Spec/Both.lean`). The tests `test_split_tets_thru_centroid` and `test_split_tris_thru_centroid` (`Test/SplitThru.lean`) are modelled as written, with the comparison against the overwritten input. |
| C79 | the tests of moments and grids | `Test/GridTests.lean` models the loops over the moments with the running index `mind`, the box formula, the `calloc` size as a product of `int`s, the reads of the grid, and the conversion to the unit box. The moments of a box are integrated by Fubini; the grid tests follow from C37/C18 (conservation), C39/C21 (index box) and C69/C57 (room). |
| C80 | splitting a non-convex polyhedron | `Test/Nonconvex.lean` writes the 12 vertices and 36 neighbours of the zig-zag prism as the test does. `Proofs/Zigzag3.lean` computes its covering number at every point from the six side faces; `Proofs/Nonconvex3.lean` shows that the checks pass for every polyhedron, convex or not, with a covering number that is nowhere negative. |
| C81 | intersecting tetrahedra and triangles | `Proofs/Intersect.lean` combines C35/C15 (the faces bound the simplex) with C58/C57 (clip and reduce integrate over the intersection with half-spaces); the trials of the timing tests are modelled as written, with the arrays reused for the second simplex. |
| C82 | unit tests of rNd | `Test/TestsN.lean` models the tests with their random simplex and plane; `Proofs/TestsN.lean` shows that a plane through no vertex of a simple polytope is in general position, so that C49, C52 and C54 apply to both halves, and that the overlap of the halves has volume 0; by the same step the recursive test goes on from each half (`SplitPolyN`). There a plane through a vertex ends the run, because the model has no NaN. NaN in the single split is modelled by `Spec/NanQ.lean`. |
| C83 | test_voxelization of rNd | `Test/GridTestN.lean`; the vertices are in the unit box because rand() is at most RAND_MAX, so the index box is in the grid (C47); then C53 with the bound on the room from `Proofs/RoomN.lean` |

## 4. Trusted base

Lean 4.33.0 kernel; axioms `propext`, `Classical.choice`, `Quot.sound` only; the reading of
the C source recorded in the comments of the model files; the simplifications listed there
and in section 1.

Modelled with a simplification: `log2` of the stack size in the rasterizers is the exact
logarithm, except in `Verif/Int32.lean`, where it may have an error of `2^-33` and the results are
shown to be the same (C66); their work loops and `do/while` walks carry a step bound and the theorems show it
is never reached; recursion of uninitialised locals is a parameter (`junk`), so the results
hold whatever these contain.  Integers are unbounded except in `Verif/Int32.lean`, where the
expressions that depend on the size of the grid are checked against the 32-bit types (C66);
vertex counts and indices are bounded by the buffer sizes.  On the heap of C75 `malloc` and `realloc`
always succeed, `realloc` always moves and `malloc(0)` returns a block of its own; printing is the list of the
values that are printed.  Not modelled: the print functions of polys, null-pointer checks, allocation that fails.

## 5. Disagreements between code and documentation

Each is proved as a theorem about the model (names in brackets).

* `r2d_split` negates the signed distances, so `out_pos` receives the side `n.x + d <= 0`
  [`C07_r2d_split_pos_false`].  `r3d_split` does not.
* `r2d_clip` and `r2d_split` never compare `nverts` with `R2D_MAX_VERTS`: a valid full poly
  makes them write past the buffer [`C08_r2d_clip_false`, `C08_r2d_split_false`].
* With the plane `0 = 0` both clips keep everything [`C05_zero_plane`]; excluded by hypothesis.
* `r2d_rotate` assigns `pos.x` twice and never `pos.y` [`C12_r2d_rotate_false`]; even the
  rotation by 0 collapses the polygon [`C12_r2d_rotate_zero_collapses`].
* `r2d_is_good` accepts vertices that point to themselves [`C13_r2d_is_good_false`] and reads
  outside its counters on negative links [`C13_r2d_is_good_negative_oob`].
* `r2d_box_faces_from_verts` has the wrong sign of `d` on the two lower sides
  [`C16_r2d_box_faces_false`].
* `r2d_rasterize` does not clip to the index box: border cells collect everything outside
  [`C19_r2d_rasterize_region`].  `r2d_split_coord` has no capacity check
  [`C20_r2d_rasterize_in_bounds`].
* `r2d_get_ibox` starts from ±1e30, so the box is not minimal for larger coordinates
  [`C21_r2d_get_ibox_not_minimal_beyond`].
* `r3d_clip` and `r3d_split` return 0 on a full buffer but leave the caller's poly changed
  [`C26_r3d_clip_failure_corrupts`, `C26_r3d_split_failure_corrupts`].
* `r3d_poly_faces_from_verts` gives planes that are positive *outside* when the faces are listed
  in the order `r3d_init_poly` needs [`C35_r3d_poly_faces_outward`]; for a face with a reflex
  corner the direction can be wrong in either order [`C35_r3d_poly_face_reflex`].
* The fill stack of `r3d_is_good` has `R3D_MAX_VERTS` entries but `2*nverts+1` are needed: it
  overflows for valid prisms that fill half of the buffer [`C32_prism_overflow`,
  `C32_not_claim_overflow`].  Negative links are used as indices [`C32_not_claim_negative`].  One-way
  links can hide a cut [`C32_not_claim_oneway`]; self-links [`C32_accepts_loops`] and a wrong order of
  the links around a vertex [`C32_accepts_twisted`] are accepted.
* `r3d_voxelize` does not clip to the index box either [`C37_r3d_voxelize_region`], and
  `r3d_split_coord`, unlike `r3d_split`, has no capacity check: a cube in a buffer of 15 vertices is
  written past its end [example in `Props/C38.lean`].
* `r3d_clamp_ibox` ignores the return value of `r3d_clip`: with a full buffer the caller gets the
  clamped box with an unclipped, invalid polyhedron [`C39_r3d_clamp_full`].
* The face walks of the library (`FaceStep`: slot after the one pointing back) pass each face in the
  direction opposite to the list given to `r3d_init_poly` (`FaceList.Faces`).
* `r3d_init_brep` writes into an array of length 0 for an empty poly [`C40_r3d_init_brep_empty`], and
  reads `edge_marked[nverts]`, past the end when the vertex buffer is full
  [`C40_r3d_init_brep_full`].
* `rNd_affine` overwrites (`=`) where it should accumulate (`+=`), and leaves `mat[D][D]` out of the
  divisor [`C43_rNd_affine_computes`, `C43_rNd_affine_false`]: every matrix whose last row is
  `0 … 0 1`, that is every affine map, divides by zero [`C43_affine_matrix_divides_by_zero`].
* `rNd_rotate` with `ax1 = ax2` scales that axis by `sin θ + cos θ` [`C46_rotate_same_axis`]; axes
  outside the array are not checked [`C46_rNd_shear_bad_axis`].
* `rNd_init_box` gives parallel 2-faces the same number (`nfaces` is `D(D−1)/2`, not the number of
  2-faces) [`C42_rNd_init_box`].
* `rNd_clamp_ibox` has room for 6 planes whatever the dimension; with `RND_DIM` = 4 an index box that
  sticks out on 7 or 8 sides overruns the array [`C44_rNd_clamp_overflow`, `C44_rNd_clamp_false`].
* `rNd_clip` indexes out of bounds in dimension 2 [`C48_rNd_clip_dim2_fails`] (the library is documented
  for any `RND_DIM`), and has no capacity check [`C48_rNd_clip_no_capacity_check`].
* `rNd_reduce` divides by the length of each edge.  Clipping with a plane through a vertex leaves
  neighbours that coincide, and then the result is 0/0: the unit cube clipped by a plane through three
  corners has volume NaN [`C52_rNd_reduce_zero_edge`, `C52_rNd_clip_reduce_nan`].  It ignores
  `polyorder` and computes the volume only.
* `rNd_is_good` has the faults of `r3d_is_good`: the stack needs `(RND_DIM-1)*nverts+1` entries and has
  `RND_MAX_VERTS`, so that with the default sizes a good graph with 342 vertices overflows it
  [`C54_ring_overflow`, `C54_not_claim_overflow`]; negative links are used as indices
  [`C54_not_claim_negative`]; one-way links can hide a cut [`C54_not_claim_oneway`].
* `r3d_init_poly` needs room for one vertex per corner, although the result has two fewer per vertex;
  when they do not fit it returns 0 but leaves `poly->nverts` nonzero with the old vertices
  [`C55_r3d_init_poly_full`].
* The grid index of `r2d_rasterize` and `r3d_voxelize` is computed in 32 bits and overflows as soon as the
  grid has more than `2^31` numbers [`C66_r2d_rasterize_overflow`, `C66_r3d_voxelize_overflow`]; on the
  grid of `512³` cells that a comment in src/v3d.c mentions this happens with moments of order 3
  [`C66_r3d_voxelize_512_overflow`].  `rNd_voxelize` has a 64-bit index but computes the number of cells
  and the strides in 32 bits [`C66_rNd_voxelize_overflow`].
* The get_ibox routines convert `1e30` to an integer when the poly is empty, as it is after a clip that
  leaves nothing: undefined behaviour [`C66_get_ibox_empty`].
* The deprecated `r2d_rasterize_quad` (deprecated/r2d.c) decides by the corners of a cell whether to clip it.
  When each side of the quadrilateral has a corner of the cell on its inner side but the cell misses the
  quadrilateral, some face finds all vertices left outside, and the walk that looks for the next vertex
  inside never ends [`C67_rasterize_quad`].  It hangs on a square turned by 45 degrees near the corner of
  a cell [`C67_never_returns`].
* In the same function `1 + 3*i + 3*i*i` is computed in 32 bits, which overflows from row 26755 on (read off
  the source; the model has unbounded integers here).
* With `USE_TREE` the same function splits a node of width 0 and height 1 into two equal nodes, until
  `treestack[128]` is overrun: a grid without columns is not an error but an access out of bounds
  [`C68_no_columns_oob`].
* The deprecated `r3d_voxelize_tet` (deprecated/r3d.c) with `USE_TREE` numbers the corners of a node around the
  bottom and the top face, but `r3du_init_box` numbers the vertices of the voxel with z running fastest; line 349
  copies `orient[v]` to vertex `v` all the same.  Cut cells are clipped by something else than the given planes:
  the tetrahedron `x, y, z ≥ 0, x + y + z ≤ 5/4` gets half of its volume in the unit cell
  [`C71_tet_half`, `C71_tree_wrong`, `C71_tree_mirror`].  With the right order the two versions agree
  [`C71_right_order`].
* `r2du_orient` (deprecated/r2d.c 636-638) is documented as the signed area, but is its negative: it is negative
  for the counterclockwise order that `r2du_faces_from_verts` asks for, unlike `r2d_orient` and `r3du_orient`.  A
  quadrilateral ordered so that it is positive gets zeros or makes `r2d_rasterize_quad` hang [`C72_r2du_orient`,
  `C72_quad_clockwise`].
* `rNd_reduce` normalises the edges at each vertex, so an edge whose length is of the order of the rounding
  errors has a direction that means nothing.  If the two ends of such an edge come out in a dent, the terms
  of its two ends no longer cancel, and the volume of a polytope of volume 1/2 comes out as 1, however small
  the displacement [`C74_rNd_reduce_unstable`].  `r2d_reduce` and `r3d_reduce` are polynomials in the
  positions and have no such problem [C60, C61].
* `test_recursive_splitting_nondegenerate` (src/tests/r3d_unit_tests.c 209-300) does not check for a zero normal
  vector, unlike its siblings; with one it fails although nothing is wrong with the library [`C76_zero_normal`].
  With the true `log` and `cos` that takes `rand() == RAND_MAX` three times.
* The tests pass vacuously on non-numbers: `rand_normal` takes the logarithm of `rand_uniform()`, which may be 0;
  the comparisons in `ASSERT_EQ`, `ASSERT_LT` and in the loop of `rand_tet_3d` are false for NaN, and
  `ASSERT_EQ(0, 0)` computes 0/0 (src/tests/utest.h; read off the source, the model stops at `log(0)`).
* `r3d_split` and `r2d_split` document `inpolys` as `[in]` (src/r3d.h 123, src/r2d.h 120) but overwrite each poly
  that the plane cuts: a cube cut in half has 16 vertices afterwards [`C78_r3d_split_input_not_const`,
  `C78_r2d_split_input_not_const`].  It is left holding both parts, so its moments are still those of the
  original [`C78_r3d_split_input_moments`, `C78_r2d_split_input_moments`].
* `test_split_tets_thru_centroid` and `test_split_tris_thru_centroid` compare the parts with that overwritten poly.
  The comparison holds for any two closed polys in one buffer, wherever they are [`C78_r3d_comparison_blind`,
  `C78_r2d_comparison_blind`]: a split that puts the new vertices in wrong places passes.
* `test_voxelization` and `test_rasterization` only compare sums over all cells, which are right for every non-empty
  index box [`C79_voxelization_blind`, `C79_rasterization_blind`, `C83_voxelize_and_check`], so a wrong `r3d_get_ibox` or a wrong
  distribution among the cells goes unnoticed.
* `test_rasterization` declares `verts[4]`, of which `rand_tri_2d` sets three, and then moves all four
  (src/tests/r2d_unit_tests.c 549-556): it computes with an uninitialised `double`, which is not used further
  (read off the source).
* `get_centroid_2d` (src/tests/test_helpers.c 282-295) adds both coordinates to `centroid.x` (line 290), so
  `thru_cent_2d` and `thru_vert_cent_2d` do not pass through the centroid [`C77_get_centroid_2d`,
  `C77_thru_cent_2d_misses`].  The tests do not notice, as the moments of the halves add up for every line.
* `get_centroid_Nd` takes the centroid by value and so does not change the caller's; `thru_cent_Nd` uses
  uninitialised memory (src/tests/test_helpers.c 306 on; read off the source).  `thruCentN` models it like that: the centroid is part of the arbitrary memory.
* `test_nonconvex` of rNd (not registered) cannot pass: `rNd_orient` has a sign and `rNd_reduce` has none
  [`C82_nonconvex_fails`].
* The macros of utest.h let NaN pass [`C82_nan_passes`], so `test_split_simplex_thru_centroid` does not notice
  that a plane through a vertex makes both volumes NaN [`C82_split_through_vertices`].
