{"id": "C01", "title": "Mask subsumption is geometric inclusion", "statement": "For grid masks a and b (one optional integer per axis), a.subsumes(b) holds exactly when every point of space whose coordinates satisfy a also satisfies b; strict_subsumes is the strict version; partial_ordering returns Less/Greater/Equal/Unknown exactly according to this inclusion.", "quantifier": "all dimensions, all pairs of masks", "why_tests_cant": "The order is decided by a stateful loop with early returns; only a proof covers every dimension and every pattern of bound and unbound axes.", "anchors": ["include/mandoline/coord_mask_impl.hpp: partial_ordering, subsumes, strict_subsumes"]}
{"id": "C02", "title": "Mask intersection is the smallest common grid element", "statement": "a & b is the greatest mask subsumed by both a and b: it is subsumed by both, and any mask subsumed by both is subsumed by it; hence & is commutative, associative and idempotent, and get_container_mask of a family of elements does not depend on the order in which they are visited.", "quantifier": "all dimensions, all masks, all non-empty families of masks and all visiting orders", "why_tests_cant": "Order-independence of a fold over arbitrary families cannot be enumerated.", "anchors": ["include/mandoline/coord_mask_impl.hpp: operator&=, operator&", "include/mandoline/coord_masked_geometry_impl.hpp: get_container_mask"]}
{"id": "C03", "title": "Mask union binds everything either side binds", "statement": "a | b should bind each axis that a or b binds (with agreeing values), dually to &. In the code operator|= has the same body as operator&=, so the property fails for every pair in which some axis is bound by one side only.", "quantifier": "all dimensions, all pairs of masks", "why_tests_cant": "The failure set is characterised exactly (all pairs with an axis bound on one side only), which no finite sample shows.", "anchors": ["include/mandoline/coord_mask_impl.hpp: operator|=, operator|"]}
{"id": "C04", "title": "possible_cells of a point are exactly the closed grid cells containing it", "statement": "For a vertex whose fractional part is normalised, c is in v.possible_cells() iff the closed unit cube with lower corner c contains v.p(); the number of cells is 2^k where k is the number of integral coordinates of v.p().", "quantifier": "all dimensions, all normalised vertices, all integer cells", "why_tests_cant": "Quantifies over all real positions and all subsets of axes.", "anchors": ["include/mandoline/vertex_impl.hpp: possible_cells, mask", "include/mandoline/coord_mask_impl.hpp: possible_cells, as_bitset"]}
{"id": "C05", "title": "Vertices have a unique normal form", "statement": "Vertex::from_vertex(p) and Vertex::repair() leave the position p() unchanged and leave every fractional part in [0,1); on such vertices operator== holds iff the positions are equal, and repair is idempotent.", "quantifier": "all dimensions, all positions", "why_tests_cant": "Quantifies over all positions (exact arithmetic).", "anchors": ["include/mandoline/vertex_impl.hpp: from_vertex, repair, operator==, p"]}
{"id": "C06", "title": "Vertex ordering is a strict total order compatible with equality", "statement": "operator< on vertices is irreflexive, transitive and total with respect to operator==; on normalised vertices it is the lexicographic order on (integer parts, then fractional parts). It is therefore a legal key order for the std::map used to fuse vertices.", "quantifier": "all triples of vertices in every dimension", "why_tests_cant": "A key order violation shows only for particular triples; std::map then silently loses or duplicates vertices.", "anchors": ["include/mandoline/vertex_impl.hpp: operator<, operator=="]}
{"id": "C07", "title": "Vertex arithmetic agrees with vector arithmetic", "statement": "(a+b).p() = a.p()+b.p(), (a-b).p() = a.p()-b.p(), (a*s).p() = s a.p(), a.lerp(b,t).p() = (1-t) a.p() + t b.p(), and every result is normalised.", "quantifier": "all dimensions, vertices, scalars", "why_tests_cant": "Quantifies over all real inputs.", "anchors": ["include/mandoline/vertex_impl.hpp: operator+, operator-, operator*, lerp"]}
{"id": "C08", "title": "Clamped flags only ever mark integral coordinates", "statement": "If in the operands every coordinate flagged clamped has zero fractional part, then the same holds for the results of from_vertex, +, -, *, lerp, thresholding and mask clamping; hence is_grid_vertex() implies that p() is an integer point.", "quantifier": "all expressions built from these operations, of any depth", "why_tests_cant": "Invariant over arbitrary sequences of operations.", "anchors": ["include/mandoline/vertex_impl.hpp: operator+, operator-, operator*, lerp, apply_thresholding, is_grid_vertex", "include/mandoline/coord_mask_impl.hpp: clamp"]}
{"id": "C09", "title": "Thresholding is a small, idempotent snap to the grid", "statement": "For thresholds in [0,1/2], apply_thresholding keeps the vertex normalised, only changes a coordinate by replacing it with the nearest integer, moves each coordinate by less than 2*threshold, marks exactly the snapped coordinates as clamped, and a second application changes nothing.", "quantifier": "all dimensions, all normalised vertices, all thresholds in [0,1/2]", "why_tests_cant": "Quantifies over all real inputs including the boundary between the two branches.", "anchors": ["include/mandoline/vertex_impl.hpp: apply_thresholding"]}
{"id": "C10", "title": "approx is proximity of positions", "statement": "a.approx(b) should hold iff the positions differ by at most the threshold in every coordinate. The code compares q with oq+1 where the true difference is q+1-oq, so two vertices on either side of a grid plane at arbitrarily small distance are reported as not approximately equal.", "quantifier": "all pairs of normalised vertices", "why_tests_cant": "The failing pairs form an infinite family at every grid plane; the property is an equivalence over reals.", "anchors": ["include/mandoline/vertex_impl.hpp: approx"]}
{"id": "C11", "title": "Element possible_cells = cells containing every vertex", "statement": "For a set of vertex indices, possible_cells(indices) returns exactly the grid cells whose closed cube contains all the vertices, independent of their order, and the empty set iff no single closed cell contains them.", "quantifier": "all non-empty index lists, all vertex positions, all dimensions", "why_tests_cant": "Quantifies over lists of arbitrary length.", "anchors": ["include/mandoline/construction/generator_impl.hpp: possible_cells", "include/mandoline/coord_masked_geometry_impl.hpp: possible_cells"]}
{"id": "C12", "title": "Container masks locate geometry", "statement": "The mask stored for an edge or face is the finest grid plane/edge/vertex containing all of its vertices: it is bound to c along axis d iff every vertex has coordinate exactly c along d.", "quantifier": "all non-empty vertex sets in all dimensions", "why_tests_cant": "Quantifies over lists of arbitrary length and over all positions.", "anchors": ["include/mandoline/coord_masked_geometry_impl.hpp: get_container_mask", "include/mandoline/construction/generator_impl.hpp: face_mask, get_mask", "include/mandoline/cutface_impl.hpp: update_mask", "include/mandoline/cutedge_impl.hpp: update_mask"]}
{"id": "C13", "title": "Grid crossings of an edge are complete and exact", "statement": "For an input segment with endpoints a and b baked against a grid, every reported parameter t lies in (0,1) and (1-t)a+tb has an integral coordinate along an axis in which the segment is not constant; parameters are reported once and in increasing order; every crossing of plane n of axis d is represented by a reported intersection lying exactly on that plane; and if no crossing passes within twice the snapping tolerance of a plane it is not on, the reported parameters are exactly the crossing parameters.", "quantifier": "all dimensions, all segments with normalised endpoints, all grids", "why_tests_cant": "Missed or spurious crossings depend on sign, integrality and number of crossed planes: unbounded.", "anchors": ["include/mandoline/construction/facet_intersections_impl.hpp: EdgeIntersections::bake"]}
{"id": "C14", "title": "Crossings lie on the segment and on the grid", "statement": "Each reported crossing lies exactly on a grid plane the segment crosses at its parameter t, within twice the snapping tolerance of (1-t)a+tb (exactly there when no crossing is nearly on another plane), is flagged clamped along exactly the axes in which it is integral, and get_coord recovers t. The tolerance is 2e-10 times the largest number of grid vertices along an axis, so a crossing is within 4e-10 N of the segment if no axis has more than N vertices.", "quantifier": "all segments and all crossings", "why_tests_cant": "Quantifies over all real inputs.", "anchors": ["include/mandoline/construction/facet_intersections_impl.hpp: EdgeIntersections::bake, get_coord, from_coord"]}
{"id": "C15", "title": "Subdivided input edges form a path", "statement": "The sequence of vertices returned for an input edge starts at its first endpoint, ends at its second, is strictly increasing in edge parameter, and the returned edges are exactly the consecutive pairs of that sequence, so the edge lengths add up to the length of the original edge.", "quantifier": "all edges, any number of intersections, inserted in any order", "why_tests_cant": "Unbounded number of intersections and insertion orders.", "anchors": ["include/mandoline/construction/facet_intersections_impl.hpp: gvertices, vptr_edges", "include/mandoline/construction/facet_intersections.hpp: EdgeIntersections"]}
{"id": "C16", "title": "Subdivided input edges stay inside single grid cells", "statement": "Every sub-edge produced from an input edge lies in one closed grid cell: no integer plane separates its two endpoints.", "quantifier": "all segments, all sub-edges", "why_tests_cant": "Consequence of completeness over unbounded numbers of crossings.", "anchors": ["include/mandoline/construction/facet_intersections_impl.hpp: EdgeIntersections::bake, vptr_edges"]}
{"id": "C17", "title": "Crossing indices identify vertices", "statement": "After compute_crossings with fusing: a crossing at a grid vertex gets that grid vertex's index; two crossings get the same index iff they are at the same position; and the indices of non-grid crossings are exactly the contiguous range starting at the number of grid vertices.", "quantifier": "all lists of crossings (any number, any duplicates, any order)", "why_tests_cant": "Numbering by a stateful map; unbounded input lists.", "anchors": ["include/mandoline/construction/cutdata_impl.hpp: compute_crossings"]}
{"id": "C18", "title": "Crossings order is a legal sort order", "statement": "The comparison operator used for edge intersections should be a strict weak ordering (as std::set / std::sort require). In the code it requires both edge_index< and Vertex< when the edge indices differ, so incomparability is not transitive.", "quantifier": "all triples of edge intersections", "why_tests_cant": "Ordering axioms quantify over triples; violation is undefined behaviour in std containers.", "anchors": ["include/mandoline/construction/vertex_types_impl.hpp: EdgeIntersection::operator<"]}
{"id": "C19", "title": "Grid edges are subdivided into a path", "statement": "For every grid edge, the cut edges generated on it are the consecutive pairs of its two grid vertices and all crossings on it, ordered by position: they form a path from one grid vertex to the other and their lengths add to one, independent of the order in which crossings were found.", "quantifier": "all grid edges, any number of crossings with any parameters in (0,1), any insertion order", "why_tests_cant": "Unbounded number of crossings and schedules of insertion.", "anchors": ["include/mandoline/construction/generator_impl.hpp: bake_edges"]}
{"id": "C20", "title": "Active cells are exactly the cells touched by cut geometry", "statement": "A grid cell is active (not handled by the exterior grid) iff it lies inside the grid and its closed cube contains one of the cut vertices; every active cell is a possible cell of some cut vertex and conversely.", "quantifier": "all grids and all vertex sets", "why_tests_cant": "Quantifies over all vertex positions and counts.", "anchors": ["include/mandoline/construction/generator_impl.hpp: active_cells, bake_active_grid_cell_mask, per_boundary_cell_vertex_looper"]}
{"id": "C21", "title": "Exterior cells are numbered bijectively", "statement": "cell_index(coord) on the exterior grid is -1 exactly for coordinates outside the grid or in the interior mask; for the others it is a bijection onto 0..num_cells-1 whose inverse is cell_coord.", "quantifier": "all grid shapes and masks", "why_tests_cant": "Quantifies over all masks of arbitrary shape.", "anchors": ["include/mandoline/exterior_grid_impl.hpp: ExteriorGrid ctor, make_faces, cell_index", "include/mandoline/exterior_grid.hpp"]}
{"id": "C22", "title": "Exterior facets are exactly the adjacencies of exterior cells", "statement": "The facets of the exterior grid are: for each axis, one entry per pair of adjacent exterior cells (lower, upper) and one entry per exterior cell on the low or high face of the domain with -2 on the outer side; nothing else and nothing twice. The code omits the high-side facets of any axis along which the grid has a single cell.", "quantifier": "all grid shapes and masks", "why_tests_cant": "Quantifies over all shapes/masks; the omission only shows up on degenerate shapes.", "anchors": ["include/mandoline/exterior_grid_impl.hpp: make_faces"]}
{"id": "C23", "title": "Signed incidence: every interior facet joins two cells with opposite signs", "statement": "boundary_triplets(false) of the exterior grid has, in each row, either no entries (domain facets) or exactly one -1 (negative side) and one +1 (positive side) in two different columns that are cells; hence it annihilates constant fields. With the domain boundary included the row of a domain facet has exactly one entry.", "quantifier": "all domain boundary pair lists", "why_tests_cant": "Unbounded lists of facets.", "anchors": ["src/operators/boundary.cpp: boundary_triplets", "src/operators/boundary2.cpp", "src/operators/boundary3.cpp", "include/mandoline/domain_boundary.hpp"]}
{"id": "C24", "title": "Each exterior cell has 2D facets with cancelling orientation", "statement": "In a grid with no interior mask and at least two cells along each axis, with the domain boundary included, each cell appears in exactly 2D facets, D times on the lower and D times on the upper side.", "quantifier": "all grid shapes", "why_tests_cant": "Unbounded sizes.", "anchors": ["include/mandoline/exterior_grid_impl.hpp: make_faces", "src/operators/boundary.cpp"]}
{"id": "C25", "title": "Adaptive cells tile the exterior", "statement": "With max_level = 0 (any grid shape), and for a cubic grid of side 2^n with a positive stop level or at least one active cell, the cells produced by the adaptive grid factory are pairwise disjoint, lie in the grid, contain no active (cut) grid cell, and together cover every inactive grid cell. Defects: a 2^n cube with no active cell and no stop level yields no cells at all, and for other shapes with max_level != 0 the cells produced stick out of the grid.", "quantifier": "all grid shapes and all masks, all level limits", "why_tests_cant": "Quantifies over all masks and hierarchy depths.", "anchors": ["src/construction/adaptive_grid_factory.cpp: ctor, make_cells, get_cells, add_cell", "include/mandoline/construction/adaptive_grid_factory.hpp"]}
{"id": "C26", "title": "Adaptive lookup grid agrees with the cells", "statement": "The dense lookup grid maps a unit cell to the id of the adaptive cell containing it and to -1 otherwise; get_cell_index(p) returns the id of the adaptive cell whose half-open cube contains p and -1 for a point of the domain in no adaptive cell. It should return -2 for every point outside the domain, but does so only when some coordinate is below 0 or above vertex_shape: points up to one cell beyond the high side get -1.", "quantifier": "all sets of disjoint cells, all query points", "why_tests_cant": "Quantifies over cell layouts and real positions.", "anchors": ["src/adaptive_grid.cpp: grid_from_cells, get_cell_index, cell_index"]}
{"id": "C27", "title": "Adaptive faces separate exactly the adjacent cells", "statement": "Each face of the adaptive grid records the two adaptive cells on its negative and positive sides (-2 for outside the domain); a pair of cells of the tiling with a shared unit facet appears as a face and no face joins a cell to itself.", "quantifier": "all cell layouts", "why_tests_cant": "Quantifies over layouts of arbitrary size and depth.", "anchors": ["src/adaptive_grid.cpp: faces, make_faces"]}
{"id": "C28", "title": "Adaptive volumes and projections", "statement": "The adaptive cells' widths satisfy sum of width^3 = number of inactive unit cells, and cell_volumes() of a generated mesh returns unit volume times width^3 per cell, in order. In the cell projection every unit cell covered by an adaptive cell has exactly one entry, in that cell's column, with weight 1/width^3 (columns sum to one); active cells have none. In the face projection the weights of a face between two cells sum to one and are spread over exactly the unit facets separating the cells when the positive-side cell is at most as wide as the negative-side one. Defects: when the negative-side cell is strictly smaller every weight is put on a facet that does not separate the cells; face_volumes reports dx(d)*dx(d+1) instead of dx(d+1)*dx(d+2) per unit facet of axis d; cell_volumes writes out of bounds if ids are not contiguous (a grid straight from the factory).", "quantifier": "all cell layouts and spacings", "why_tests_cant": "Quantifies over layouts of arbitrary size.", "anchors": ["src/adaptive_grid.cpp: cell_volumes, grid_cell_projection, grid_face_projection"]}
{"id": "C29", "title": "Domain-boundary facet queries", "statement": "boundary_facets() should return exactly the indices of the facets with a -2 side and interior_facets() the others. The code unpacks the cell pair instead of enumerating: it throws out_of_range whenever some facet has -2 on its positive side, and otherwise returns negative-side cell ids selected by a cell id used as a facet index. The free function grid_boundary_faces returns exactly the indices of the domain facets.", "quantifier": "all facet lists", "why_tests_cant": "Quantifies over all facet lists.", "anchors": ["src/domain_boundary.cpp: boundary_facets, interior_facets, is_boundary_facet"]}
{"id": "C30", "title": "2D Laplacian is symmetric, positive semidefinite and kills constants", "statement": "For any boundary operator B and one weight per facet, laplacian = B^T diag(h) B is defined, square and symmetric with quadratic form sum_f h_f (Bx)_f^2, hence positive semidefinite for non-negative weights; when the rows of B sum to zero (a well-formed mesh without domain boundary) it maps constants to zero and the total divergence of any flux is zero; in general the total divergence is the weighted flux through the facets whose row does not sum to zero.", "quantifier": "all boundary operators of any size, all weights, all vectors; all well-formed meshes for the end-to-end statement", "why_tests_cant": "Unbounded dimension and real weights.", "anchors": ["src/operators/diffgeo2.cpp: laplacian, divergence"]}
{"id": "C31", "title": "3D divergence and Laplacian are dimensionally consistent (defect)", "statement": "divergence should map face fluxes to cells and laplacian cells to cells. In 3D the code computes B*diag(h) and B*diag(h)*B^T with B faces x cells and h one weight per face, so both are well formed only if the number of faces equals the number of cells (never for a plain n^3 grid), and the Laplacian is then indexed by faces.", "quantifier": "all meshes", "why_tests_cant": "The failure holds for all meshes with different face and cell counts.", "anchors": ["src/operators/diffgeo3.cpp: divergence, laplacian", "src/operators/boundary3.cpp: boundary"]}
{"id": "C32", "title": "Trilinear weights are a partition of unity reproducing positions", "statement": "Each cut vertex's row of the trilinear interpolation matrix has non-negative weights summing to one, and applying it to grid vertex positions (or to any affine field) returns the cut vertex position (the field's value there); grid vertices get identity rows. Columns exist for vertices strictly inside the grid; for a vertex on the high side of the last axis the code also writes a zero-weight triplet in a column beyond the matrix (defect).", "quantifier": "all dimensions, all vertices, all positions", "why_tests_cant": "Quantifies over dimension and reals.", "anchors": ["src/operators/interpolation2.cpp: trilinear_matrix", "src/operators/interpolation3.cpp: trilinear_matrix"]}
{"id": "C33", "title": "Barycentric rows are normalised and interpolate", "statement": "Every row of the barycentric interpolation matrix sums to one or to zero (zero exactly when the raw row sum is numerically zero). At a cut vertex where the input mesh is conforming the row applied to a field is the interpolation by the vertex's barycentric coordinates. Where two input triangles pass through the same cut vertex without sharing the simplex it lies on, the row does not reproduce positions (defect).", "quantifier": "all crossings, meshes and fields", "why_tests_cant": "Unbounded number of contributions per row.", "anchors": ["src/operators/interpolation2.cpp: barycentric_matrix", "src/operators/interpolation3.cpp: barycentric_matrix"]}
{"id": "C34", "title": "Barycentric coordinates of crossings", "statement": "The barycentric coordinates attached to a crossing on an edge of an input triangle, or on a chord between two boundary points of it, sum to one, are non-negative for parameters in [0,1], and reproduce the crossing's position from the triangle's vertices; clamping turns any triple summing to one into barycentric coordinates; averaging merged crossings keeps them valid. For a triangle with a repeated vertex the edge table is wrong (defect).", "quantifier": "all triangles, edge indices and parameters", "why_tests_cant": "Quantifies over reals.", "anchors": ["include/mandoline/construction/facet_intersections_impl.hpp: edge_bary, TriangleIntersections::bake, get_bary", "include/mandoline/construction/cutdata_impl.hpp: get_face_bary"]}
{"id": "C35", "title": "Planar half-edge pairing", "statement": "After baking a planar graph without hole merging, for any order of the neighbours at each vertex: the map from a directed edge to the next one is a bijection of the directed edges that continues at the head of the edge; faces() terminates and returns loops in which each directed edge not marked for removal occurs exactly once, in exactly one loop, under the id of its face; and without removal marks two directed edges have the same face id iff one is reached from the other by following the loop.", "quantifier": "all planar edge sets and all consistent cyclic orders of neighbours", "why_tests_cant": "Unbounded graphs.", "anchors": ["src/construction/face_collapser.cpp: unify_boundary_loops, finalize", "include/mandoline/construction/face_collapser.hpp: faces, faces_no_holes"]}
{"id": "C36", "title": "Face labels are contiguous and equal iff connected", "statement": "After finalize, two directed edges carry the same face id iff they were joined (directly or through a chain); edges joined with the removal marker get -1 and the others a non-negative id; if root indices are visited in increasing order and each node other than the marker is an edge id, the ids in use are exactly 0..n-1.", "quantifier": "all sequences of joins and all disjoint-set policies", "why_tests_cant": "Union-find relabelling over arbitrary histories.", "anchors": ["src/construction/face_collapser.cpp: finalize, set_edge_for_removal", "include/mandoline/construction/face_collapser.hpp"]}
{"id": "C37", "title": "Removal of a loop marks positions instead of vertices (defect)", "statement": "set_edge_for_removal(e) puts the face of e among the removed ones. set_edges_for_removal(loop) should do so for the edges of the loop, but uses positions in the loop instead of its vertices: what it records depends on the length of the loop only, it joins the edges (i, i+1 mod n), and for a triangle with vertices 10, 20, 30 it removes nothing.", "quantifier": "all edge sets", "why_tests_cant": "Quantifies over all edge sets.", "anchors": ["include/mandoline/construction/face_collapser.hpp: set_edges_for_removal"]}
{"id": "C38", "title": "Cell collapser partitions the sides of the faces into closed cells", "statement": "After bake, two half-faces are in the same cell iff their sides are linked by turning around edges from one face to the next; the two half-faces of a side are always together; cells are numbered contiguously; a face whose sides are in different cells is listed in exactly those two cells with opposite signs (true on one, false on the other); folded_faces lists exactly the faces with both sides in one cell; and the boundary of every cell without folded faces is closed: along every edge the signed incidences add to zero.", "quantifier": "all face sets, all cyclic orders around edges and all disjoint-set policies", "why_tests_cant": "Unbounded complexes.", "anchors": ["src/construction/cell_collapser.cpp: bake, merge, fill_cell_boundaries", "include/mandoline/construction/cell_collapser.hpp"]}
{"id": "C39", "title": "Regions are the connected components of the complement of the input", "statement": "2D: two cells (cut faces and exterior cells) have the same region iff they are linked by a chain of cells sharing facets that are not part of the input curve; region ids are contiguous from 0; region 0 is the region of the exterior cell at the last domain-boundary facet, and if no exterior cell touches the domain boundary it is the region of cell 0 (defect). 3D: the same for cut cells, with region 0 that of the first cut cell holding the face of smallest x coordinate; adaptive cells linked to a cut cell have its region. Defect: adaptive cells not linked to any cut cell (enclosed by surface faces lying in grid planes) are all put in region 0, and if no cell has the smallest-x face no cut cell is in region 0.", "quantifier": "all adjacency structures and all disjoint-set policies", "why_tests_cant": "Connectivity through chains of arbitrary length.", "anchors": ["src/construction/generator2.cpp: extra_metadata", "src/construction/generator3.cpp: bake_cells"]}
{"id": "C40", "title": "Axis slice coordinates round-trip", "statement": "Removing and re-inserting an axis coordinate (3D to plane coordinates and back) are inverse: downgrade(upgrade(c2,k)) = c2, and upgrade(downgrade(c3),k) = c3 iff c3[axis] = k, for coordinates, positions, flags, whole vertices and vertex indices; the in-plane axes are the cyclic successors of the axis; a lifted vertex lies exactly in the plane and is flagged so.", "quantifier": "all axes, coordinates and values", "why_tests_cant": "Quantifies over all integers; the cyclic index arithmetic is easy to get wrong on one axis.", "anchors": ["include/mandoline/construction/subgrid_transformer.hpp"]}
{"id": "C41", "title": "Loop canonicalisation and duplicate suppression in grid planes", "statement": "The smallest ordered edge of a loop is one of its directed edges, is a lower bound of all of them in lexicographic order, and does not depend on where the loop is started; the reverse variant is that of the reversed loop with its ends exchanged. The plane's copy of an input face lying in a grid plane is suppressed if the face's normal points along the axis. Defect: because of the exchange, a face with the opposite normal never suppresses anything, so its copy is added a second time.", "quantifier": "all loops of any length and all rotations", "why_tests_cant": "Unbounded loops.", "anchors": ["src/construction/generator.cpp: smallest_ordered_edge, smallest_ordered_edge_reverse", "src/construction/generator3_make_faces.cpp: bake_faces, compute_faces_axis (add_loop)"]}
{"id": "C42", "title": "Adaptive cube/square serialisation: cubes round-trip, squares do not", "statement": "Serialising and reading back a cell (cube) of the adaptive grid gives the same cell. A face does not round-trip in general: reading exchanges its axis and its width, so a square comes back unchanged exactly if its width equals its axis index; its dual edge is always preserved.", "quantifier": "all cubes and squares", "why_tests_cant": "Quantifies over all values.", "anchors": ["src/adaptive_grid.cpp: Square::from_proto, Square::serialize, Cube"]}
{"id": "C43", "title": "Cut faces, cells and meshes: exactly what survives serialisation", "statement": "Reading back a serialised mesh, in whatever order the message's maps are visited, restores origin, spacing, shape, vertices, original mesh, cut faces (id, loops, normal, external boundary, triangulation), cells (boundary, id, region, grid cell), barycentric data, folded faces, adaptive cells and their regions. Lost or changed: cut edges, mesh cut edges, original edges, axial face sets, extra triangulation vertices; an empty triangulation becomes an absent one; face masks are recomputed from the vertices; adaptive faces are rebuilt from the renumbered cells and so differ from those of the generated mesh. Saving and loading a second time changes nothing more.", "quantifier": "all faces and cells with any number of loops and entries", "why_tests_cant": "Unbounded structures; the encoding merges an absent and an empty triangulation and drops some members.", "anchors": ["src/cutface3.cpp: serialize, from_proto", "src/cutcell.cpp: serialize, from_proto", "src/proto_util.cpp", "src/mesh3.cpp: serialize, from_proto"]}
{"id": "C44", "title": "Deforming geometry constructor is never stale", "statement": "After bake(), emit() is built once from the most recently supplied vertices, topology, grid and adaptivity, for any history of calls in which the vertex count is unchanged, the last update_topology comes with a call that marks the object dirty and the last update_grid is followed by supplying the vertices; bake() on unchanged input does nothing. Defects: update_topology alone is ignored by bake (and empties part of the result), update_grid alone leaves the vertices in the old grid's coordinates, the constructor ignores its threshold, and supplying fewer vertices keeps the old tail.", "quantifier": "all histories of update_vertices / update_topology / update_grid / bake / emit", "why_tests_cant": "Staleness depends on the history of calls.", "anchors": ["src/construction/construct.cpp: DeformingGeometryConstructor"]}
{"id": "C45", "title": "2D point location", "statement": "cell_index(p) returns -2 outside the grid, the exterior cell's global index when p lies in an exterior grid cell, otherwise the least-numbered cut face of that grid cell with winding number above 1/2 around p, and -1 if none; indices of cut faces and exterior cells do not overlap and cover 0..num_cells-1. cell(k) of an exterior cell is the clockwise loop of its four corners, and in_cell(p, k) for an exterior index k answers true for every p in any exterior cell, whatever k is.", "quantifier": "all meshes and query points", "why_tests_cant": "Quantifies over meshes and reals.", "anchors": ["src/mesh2.cpp: cell_index, get_cell_index, num_cells"]}
{"id": "C46", "title": "Cell volumes by the divergence theorem", "statement": "The volume computed for a cell from its boundary loops does not depend on the choice of origin when the boundary is closed (in particular for every baked cell without folded faces), changes sign with orientation, and is additive: the volume of a union in which shared faces cancel is the sum of the volumes. It equals the determinant volume for a tetrahedron and width*height*depth for a box. A face's contribution does not depend on which vertex its loop starts at provided the loop is planar; for non-planar loops it does.", "quantifier": "all closed boundaries with any number of faces, loops and vertices, all rational coordinates", "why_tests_cant": "Unbounded meshes, real coordinates.", "anchors": ["src/cutcell.cpp: volume, moment", "include/mandoline/cutface_impl.hpp: brep_volume", "src/operators/volume3.cpp: cell_volumes"]}
{"id": "C47", "title": "Fan triangulation preserves area", "statement": "Fan triangulation of an n-gon yields n-2 triangles using only the polygon's vertices, whose signed area vectors add to the polygon's signed area vector; computing a face's or cell's volume from the fan gives the same value as computing it from the loop, and the triangles a cell collects (faces with negative sign flipped) give the cell's signed volume.", "quantifier": "all polygons with n >= 3", "why_tests_cant": "Unbounded n.", "anchors": ["src/cutface.cpp: triangulate_fan"]}
{"id": "C48", "title": "MAC-grid divergence stencil", "statement": "The grid divergence operator has, for each cell, +1/-1 entries exactly at its bounding faces; with Dirichlet boundaries on a square grid exactly the domain boundary faces are removed. Defect: the code tests the vertical axis against the horizontal size, so for nj < ni the upper boundary stays, and for ni < nj interior faces enter only one of their two cells.", "quantifier": "all grid sizes", "why_tests_cant": "Bug visible only on non-square grids.", "anchors": ["src/diffgeo_utils.cpp: grid_boundary"]}
{"id": "C49", "title": "Grid boundary mask", "statement": "mesh_face_mask is 0 exactly on pieces of the input mesh; grid_boundary_mask is 0 on exterior grid faces of both sides of the domain and on cut faces of the low side. Defect: the code compares with vertex_shape instead of vertex_shape-1, so no cut face on the high side is ever marked.", "quantifier": "all meshes", "why_tests_cant": "Holds for all in-range masks.", "anchors": ["src/operators/masks.cpp: grid_boundary_mask"]}
{"id": "C50", "title": "Column sums of the grid-volume matrices", "statement": "In 2D, the column of the edge grid-volume matrix of a grid edge sums to 1 when the edge lies only beside uncut grid cells, and to 1/dx of the other axis when a cell beside it contains a crossing (the sum over the pieces the edge is cut into telescopes, whatever the pieces); so all columns are partitions of unity exactly for unit spacing, and for any other spacing the column of a cut grid edge is not one. A mesh edge lying along a grid line is counted on top of the grid pieces. The column of a grid cell in the 2D face matrix is 1 for an exterior cell and otherwise the total area of the faces owned by the cell divided by the cell area (1 when they fill it). In 3D the column of a grid face is the sum of area times normal of the cut faces whose lower corner is that grid face, divided by the grid face area (1 when they fill it and point along the axis).", "quantifier": "all grid shapes, spacings, lists of crossings and of cut faces", "why_tests_cant": "Subdivisions are unbounded and spacings range over all rationals; the project's own test uses one spacing.", "anchors": ["src/operators/interpolation2.cpp: edge_grid_volume_matrix, face_grid_volume_matrix", "src/operators/interpolation3.cpp: face_grid_volume_matrix"]}
{"id": "C51", "title": "Parallel baking is schedule-independent", "statement": "Under any interleaving of the elementary steps of the iterations of the parallel loops of CutData::bake (edge baking, triangle baking, collecting cut edges and cut faces under a mutex), the crossings and their indices are the same, and the cut edges and cut faces are the same, each the same number of times; only the order in which those of different input edges (triangles) are stored may vary. No schedule deadlocks or runs for ever. In 2D the result is exactly that of the sequential program. Without the mutex, cut edges could be lost.", "quantifier": "all numbers of edges and triangles, all per-element computations, all task schedules (address order of vertices in 3D being fixed)", "why_tests_cant": "Schedules are combinatorially many.", "anchors": ["include/mandoline/construction/cutdata_impl.hpp: bake, add_edge, add_face, compute_crossings, gv_index_map", "include/mandoline/construction/facet_intersections_impl.hpp: EdgeIntersections::bake", "include/mandoline/construction/facet_intersections.hpp: edges, gvertices"]}
{"id": "C52", "title": "Global cell numbering is disjoint and contiguous", "statement": "In 3D, cut cells take indices 0..n-1 and adaptive cells n..n+m-1: every index in 0..num_cells-1 denotes exactly one cell and is_cut_cell / is_exterior_cell classify it, faces likewise; is_exterior_cell also answers true for every index past the end. get_cell_index(p) returns the adaptive cell containing p, else the least-numbered cut cell of the grid cell whose containment test accepts, else -1; cell volume and region vectors have num_cells entries with each cell's value at its index.", "quantifier": "all meshes", "why_tests_cant": "Quantifies over all sizes.", "anchors": ["src/construction/generator3.cpp: bake_cells", "src/mesh3.cpp: cell_size, is_cut_cell, num_cells"]}
{"id": "C53", "title": "Exploded mesh stitching keeps indices valid", "statement": "Concatenating the per-cell meshes offsets each block's triangle indices by the number of vertices of the shown cells before it, so every index refers to the displaced vertex of its own cell; no vertex or triangle is lost, each vertex gets its cell's colour, cells move rigidly by (scale-1) times their centre. With grid-cell centres and scale at least 1, cells in non-overlapping boxes do not overlap after exploding and move apart by (scale-1) times the distance of their centres; refuted for region centres: cells of different regions can run into each other.", "quantifier": "all lists of blocks, all scales, all boxes", "why_tests_cant": "Unbounded lists.", "anchors": ["src/tools/exploded_mesh.cpp"]}
{"id": "C54", "title": "Planar curve file round-trip", "statement": "Reading a file written by write_plcurve returns the same vertices (to printed precision) and edges iff there are as many edges as vertices. Defects: the reader falls through from the vertex section into the edge section and sizes the edge array by the vertex counter, so an open curve comes back with extra edges made of vertex coordinates, and a curve with more edges than vertices is written out of bounds.", "quantifier": "all curves", "why_tests_cant": "Quantifies over all inputs.", "anchors": ["src/tools/plcurve_io.cpp: read_plcurve, write_plcurve"]}
{"id": "C55", "title": "Region volume comparison", "statement": "region_volumes accumulates, at the index of a region, the total volume of its cells, and reports the right volume per region if the ids appear in the order 0,1,2,...  Defect: it exchanges region and index when reporting, so for other orders volumes are attributed to the wrong region, and for ids with gaps it reads out of bounds.", "quantifier": "all meshes", "why_tests_cant": "Quantifies over all region assignments.", "anchors": ["tools/validation/region_volumes.cpp: region_volumes"]}
{"id": "C56", "title": "Baking without a grid keeps crossings on the segment (defect)", "statement": "Calling bake() without a grid should report the same crossings as with a grid. In the code the snapping tolerance is then 1, so every reported crossing is moved to an integer point in all coordinates, off the segment.", "quantifier": "all dimensions, all segments", "why_tests_cant": "Tests always pass a grid; the collapse happens for every segment.", "anchors": ["include/mandoline/construction/facet_intersections_impl.hpp: EdgeIntersections::bake (mythresh)"]}
{"id": "C57", "title": "Cells traversed by an input edge are active", "statement": "If an input edge passes through the interior of a grid cell, that cell is active: its closed cube contains one of the vertices the edge is subdivided into.", "quantifier": "all segments (with no crossing nearly on another plane), all cells, all points of the segment", "why_tests_cant": "Quantifies over the continuum of points of every segment.", "anchors": ["include/mandoline/construction/facet_intersections_impl.hpp: EdgeIntersections::bake", "include/mandoline/construction/generator_impl.hpp: active_cells"]}
{"id": "C58", "title": "Crossings outside the grid are dropped (defect)", "statement": "bake(grid) tests each crossing against the grid's shape and should drop those outside. The test compares the axis number instead of the coordinate and accepts every vertex for every shape, so crossings outside the grid are reported.", "quantifier": "all shapes, all vertices", "why_tests_cant": "A test that never leaves the grid cannot see that the filter accepts everything.", "anchors": ["include/mandoline/construction/facet_intersections_impl.hpp:133-142"]}
{"id": "C59", "title": "is_cut tells whether an edge was subdivided (defect)", "statement": "is_cut() should hold iff the edge was split by the grid. It returns intersections.empty(): it holds iff the edge is returned as the single piece (a,b).", "quantifier": "all segments, all grids", "why_tests_cant": "The function is not exercised by the tests; the statement ranges over all segments.", "anchors": ["include/mandoline/construction/facet_intersections.hpp: EdgeIntersections::is_cut"]}
{"id": "C60", "title": "Domain-boundary adaptive faces are recognised consistently", "statement": "A face of the adaptive grid has a -2 on one side of its dual edge exactly when its corner coordinate along its axis is 0 or the vertex count minus one: the two tests used by the API to recognise domain-boundary faces (by dual edge and by position) agree.", "quantifier": "every adaptive grid whose cells are disjoint and lie inside the grid, and every face of it", "why_tests_cant": "must hold for every tiling and shape", "anchors": ["src/adaptive_grid.cpp: boundary_face_mask, grid_boundary_face_mask", "include/mandoline/adaptive_grid.hpp: is_boundary_face", "src/operators/boundary3.cpp: grid_boundary_faces"]}
{"id": "C61", "title": "Adaptive incidence survives renumbering", "statement": "After the generator renumbers adaptive cells to follow the cut cells, boundary_triplets of the adaptive grid still has, for a face between two cells, -1 in the column of the new number of the negative-side cell and +1 in that of the positive-side cell (different columns), and for a face on the domain boundary no entry, or a single one if the domain boundary is included.", "quantifier": "every grid shape and mask, number of cut cells and face", "why_tests_cant": "must hold for every tiling and numbering", "anchors": ["src/construction/generator3.cpp: bake_cells", "src/operators/boundary3.cpp: boundary_triplets(AdaptiveGrid)"]}
{"id": "C62", "title": "Face queries that use the dual edge after renumbering (defect)", "statement": "boundary_face_mask, dual_edge_lengths, face_volumes(true), boundary_centroids and grid_face_projection should treat a face as interior iff it separates two adaptive cells, and use those two cells. After the generator renumbers the cells but not the faces' dual edges they accept a face iff its old ids happen to lie in the new id range, so interior faces are masked out and accepted faces use unrelated cells.", "quantifier": "every renumbered adaptive grid and every face", "why_tests_cant": "depends on the number of cut cells and the grid's shape", "anchors": ["src/construction/generator3.cpp: bake_cells", "src/adaptive_grid.cpp: boundary_face_mask, dual_edge_lengths, face_volumes, boundary_centroids, grid_face_projection", "include/mandoline/adaptive_grid.hpp: is_valid_edge"]}
{"id": "C63", "title": "Triangulated adaptive cells are closed boxes", "statement": "triangulated(cell) returns twelve triangles on the corners of the cell that form a closed, consistently oriented surface enclosing exactly width^3.", "quantifier": "every cell", "why_tests_cant": "must hold for every corner and width", "anchors": ["src/adaptive_grid.cpp: triangulated"]}
{"id": "C64", "title": "Triangulated adaptive faces are oriented squares", "statement": "triangulated_face(f, invert) returns two triangles in the plane of the face with total area vector width^2 along its axis, pointing to the negative side, or to the positive side with invert; invert only reverses the triangles.", "quantifier": "every axis, square and flag", "why_tests_cant": "must hold for every face", "anchors": ["src/adaptive_grid.cpp: triangulated_face, Square::vertex"]}
{"id": "C65", "title": "Centroids of adaptive faces", "statement": "boundary_centroids() should return the centre of each face between two cells. It does when the positive-side cell is at most as wide as the negative-side cell; otherwise the point is displaced by the width of the smaller cell along the face axis.", "quantifier": "every adaptive grid of aligned power-of-two cells and every face between two cells", "why_tests_cant": "must hold for every tiling", "anchors": ["src/adaptive_grid.cpp: boundary_centroids"]}
{"id": "C66", "title": "Boundary operator of a cut-cell mesh", "statement": "In boundary(ccm, include_domain_boundary) of a well-formed mesh, the row of a cut facet between two cells (two cut cells, or a cut cell and an exterior cell) has exactly one -1 and one +1; the row of a cut facet on the domain boundary is empty, or has exactly one entry if the domain boundary is included. Hence without the domain boundary the operator annihilates constant fields, also on the exterior grid's rows in 2D. The 3D generator records for an exterior neighbour the sign opposite to that of the unique cut cell on the other side.", "quantifier": "all well-formed meshes, all facets, all exterior grids and masks, both values of the flag", "why_tests_cant": "Unbounded meshes; the tests check only a few generated ones.", "anchors": ["src/operators/boundary2.cpp: boundary", "src/operators/boundary3.cpp: boundary", "src/construction/generator3.cpp: bake_cells"]}
{"id": "C67", "title": "Neighbours are sorted counter-clockwise and loops keep their face on the left", "statement": "The quadrant/cross-product comparison used to sort the neighbours of a vertex is a strict weak ordering on nonzero directions whose ties are equal directions; in a list sorted by it no direction lies strictly between an element and its cyclic successor, counter-clockwise; hence after an edge u->a the loop continues with the edge a->w such that no neighbour lies strictly between w and u counter-clockwise.", "quantifier": "all nonzero direction vectors and all planar graphs with distinct directions at each vertex", "why_tests_cant": "Ranges over all direction triples and all vertex degrees.", "anchors": ["include/mandoline/construction/face_collapser.hpp: unify_boundary_loops, quadrant"]}
{"id": "C68", "title": "Hole merging", "statement": "After hole merging, two directed edges have the same face id iff their loops are linked by a chain of pairs (counter-clockwise loop, clockwise loop not larger and inside it); removed edges stay removed. If no clockwise loop is inside two counter-clockwise loops, different counter-clockwise loops are never merged and a clockwise loop is merged exactly with the loop it is a hole of. Defect: a clockwise loop inside two nested counter-clockwise loops merges the two faces into one.", "quantifier": "all labelled planar graphs, vertex positions, inside tests and disjoint-set policies", "why_tests_cant": "Nesting depth and number of loops are unbounded.", "anchors": ["include/mandoline/construction/face_collapser.hpp: merge_faces, volumes"]}
{"id": "C69", "title": "Flap removal in face loops (defect: invalid edges leak between faces)", "statement": "When a face loop traverses some edges in both directions, the collapser removes exactly those edges and rebuilds loops that consist of exactly the remaining directed edges, provided each remaining vertex is left once; the rebuilding always terminates. The set of edges to remove is shared by all faces, so a face that uses once an edge that is a flap of an earlier face gets a corrupted loop through vertex 0; and a loop that touches itself at a vertex loses edges.", "quantifier": "all loops of any length", "why_tests_cant": "Loops of any length; the leak depends on the history of faces processed before.", "anchors": ["src/construction/cell_collapser.cpp: clean_unmanifold, CellCollapser::CellCollapser"]}
{"id": "C70", "title": "Faces around an edge are linked in geometric order", "statement": "When two faces are consecutive around an edge, turning counter-clockwise about the edge from one to the other meets no other face along that edge, the sides of the two faces that look into the wedge between them are put in the same cell, and these are the sides the recorded signs say (true = the side the normal points to).", "quantifier": "all edges, all numbers of faces around an edge, all normals perpendicular to the edge", "why_tests_cant": "Quantifies over real vectors and any number of faces.", "anchors": ["include/mandoline/construction/cell_collapser.hpp: merge_around_edge"]}
{"id": "C71", "title": "Removal of outer cells", "statement": "Removing the cells all of whose faces are outer keeps the order of the others and both cells of every inner face, which stays listed exactly once with each sign; the signed volumes of all cells add up to zero when no face is folded, so the removed outer cells carry minus the volume of the kept ones. Defect: if all faces lie in the boundary of the grid, remove_grid_boundary_cells removes inner cells too.", "quantifier": "all complexes, all sets of outer faces, all face volumes", "why_tests_cant": "Unbounded complexes.", "anchors": ["src/construction/cell_collapser.cpp: remove_boundary_cells, remove_grid_boundary_cells, remove_boundary_cells_by_volume, remove_boundary_cells_from_faces"]}
{"id": "C72", "title": "Parameter of a cut vertex on a given input edge or triangle", "statement": "The parameter (barycentric coordinates) stored for a cut vertex of a piece of an input edge (triangle) reproduces the cut vertex's position on that edge (triangle), provided a crossing is asked for on the edge (triangle) that produced it. get_edge_coord and get_face_bary never look at which edge or triangle produced the crossing, so at a crossing shared by two input edges the wrong parameter is returned (defect).", "quantifier": "all input meshes, edges, triangles, crossings and real parameters", "why_tests_cant": "Quantifies over all meshes and real parameters; the failure needs two pieces of geometry crossing in the same grid point.", "anchors": ["include/mandoline/construction/cutdata_impl.hpp: get_edge_coord, get_face_bary"]}
{"id": "C73", "title": "Crossings of a triangle with grid lines are exact", "statement": "The crossings reported for the interior of a triangle are exactly the points where a grid line (an intersection of two grid planes) meets the triangle's interior transversally, each reported once, with exact position, clamped axes and barycentric coordinates, and the result does not depend on the memory addresses by which crossings are ordered.", "quantifier": "all triangles with rational vertices in general position (no near misses), all edge crossings, all address orders", "why_tests_cant": "Quantifies over all real triangles and pointer orders.", "anchors": ["include/mandoline/construction/facet_intersections_impl.hpp: TriangleIntersections::bake, convex_grid_condensation"]}
{"id": "C74", "title": "The cut edges of an input edge are its pieces", "statement": "After CutData<2>::bake on a mesh (no near misses of the grid lines), whatever the schedule: every vertex index denotes one position; and the cut edges whose parent is a given input edge of non-zero length are, as unordered index pairs and each exactly once, the consecutive pairs of the points of the edge at parameters 0, its grid crossings in increasing order, and 1; each carries the mask of the planes containing both ends of the input edge.", "quantifier": "all vertex sets, edge sets, grids, schedules", "why_tests_cant": "Unbounded meshes and crossings per edge; all schedules.", "anchors": ["include/mandoline/construction/cutdata_impl.hpp: bake", "include/mandoline/construction/facet_intersections.hpp: edges, gvertices, vptr_edges"]}
{"id": "C75", "title": "Queries on masks and vertices", "statement": "count is the number of bound axes; all holds iff count is D and active iff count is positive; with exactly one unbound (bound) axis, unbound_axis (bound_axis) is that axis; as_array is defined exactly on masks of points and inverts their construction; clamp moves a coordinate into the grid element of the mask, is the identity exactly on coordinates already there, and leaves unbound axes alone; is_grid_vertex holds iff clamped_count is D iff all axes are flagged; optional_index binds exactly the flagged axes.", "quantifier": "all dimensions, masks, coordinates, vertices", "why_tests_cant": "All dimensions and unbounded coordinates.", "anchors": ["include/mandoline/coord_mask_impl.hpp: count, all, active, bound_axis, unbound_axis, as_array, clamp", "include/mandoline/vertex_impl.hpp: is_grid_vertex, clamped_count, optional_index"]}
{"id": "C76", "title": "In the planar cut graph every face loop that touches an active cell stays inside that cell", "statement": "In 2D, the faces are the loops of the planar graph of all cut edges, each loop turning as sharply left as possible at each vertex. If every cut edge lies in one closed grid cell, edges at a vertex leave in different directions, and the boundary of cell c is made of cut edges, then a loop that has c on the left of one of its half-edges has c on the left of all of them, and all its vertices lie in the closed cell c; each non-degenerate half-edge in a closed cell has exactly one cell on its left. So a generated face belongs to exactly one grid cell.", "quantifier": "every planar graph of any size with rational vertex positions, every grid cell whose boundary is part of the graph, every loop, every disjoint-set tie-breaking policy", "why_tests_cant": "A test draws a few curves; the claim is about every arrangement of cut edges around a vertex on a cell's boundary (on each side, at corners, dangling edges, edges along the boundary), and loops of any length.", "anchors": ["src/construction/generator2.cpp:132-327 (generate_faces)", "src/construction/generator.cpp (compute_planar_hem)", "src/construction/face_collapser.cpp", "include/mandoline/construction/face_collapser.hpp:135-170"]}
{"id": "C77", "title": "Which planar faces become cut faces, and the grid cell each is assigned to", "statement": "In 2D, a planar face is stored as a cut face of the mesh and assigned to a grid cell by looking only at the componentwise minimum of its vertices' grid coordinates: it is stored iff its signed area is at least -1/2 and the cell at that minimum corner is not exterior, and it is assigned to that cell. For a face that has one cell c on the left of all its half-edges the minimum corner is c, so it is stored iff c is an active (cut) cell and assigned to c; in particular every loop the collapser reports that has a framed active cell on its left is stored and assigned to that cell. The intended converse (a face made of exterior cells is never stored) is false: the loop around an L-shaped hole of exterior cells is stored as a cut face of an active cell.", "quantifier": "every list of vertices, every set of active cells, every non-empty planar face with any number of loops and vertices", "why_tests_cant": "A test has a few curves whose exterior holes are rectangles; the claim covers every shape of face, and the failing shapes (an exterior hole whose minimum corner is an active cell) are not in any test.", "anchors": ["src/construction/generator2.cpp:187-254 (generate_faces)", "include/mandoline/coord_masked_geometry_impl.hpp:52-124 (get_min_coord, possible_cells)", "include/mandoline/coord_mask_impl.hpp:229-250"]}
{"id": "C78", "title": "The incidence map of the generated 2D mesh is well formed at every edge that is not dangling and not duplicated", "statement": "For the mesh generated from the cut edges and the planar faces (each half-edge in one face, each face with an active cell on its left stored): every cut edge that is not duplicated by a later edge and whose two half-edges lie in different faces either separates two cut faces that see it with opposite signs, or separates a cut face from the exterior grid cell recorded for it with the opposite sign, or lies on the boundary of the domain (which is the case exactly when a cell containing it is outside of the grid); a recorded exterior cell contains the edge, is in the grid and is exterior. If all edges are of this kind the boundary operator without domain boundary maps constants to zero. A dangling edge (both half-edges in the same cut face) is recorded once instead of twice: its row has the single entry +1 or -1 and does not vanish on constants.", "quantifier": "every planar cut graph with rational vertices and any number of edges, faces and cells, every set of active cells", "why_tests_cant": "Tests check the row sums of the operator on a handful of closed curves; the claim covers every edge of every arrangement, and the dangling ends of open curves that break it.", "anchors": ["src/construction/generator2.cpp:256-327 (make_boundary_pair, face_boundary_map)", "src/operators/boundary2.cpp", "include/mandoline/mesh2.hpp (exterior_grid, face_boundary_map)"]}
{"id": "C79", "title": "Input edges along grid lines lose their faces to the coinciding grid edge, and do not separate regions", "statement": "If two cut edges have the same end points, only the later one in the edge list is a side of the faces; the earlier one is a side of no face. Since mesh edges come before grid edges, an input edge that lies on a grid line bounds no cut face, and the two active cells on its sides get the same region although the input curve separates them.", "quantifier": "every planar cut graph with duplicated edges, every set of faces, every disjoint-set tie-breaking policy", "why_tests_cant": "Tests perturb or avoid axis-aligned input on grid lines; the claim is about every duplicated edge in any mesh and the regions of all cells.", "anchors": ["src/construction/generator2.cpp:296-319", "include/mandoline/construction/generator_impl.hpp:821-890 (generate_edges)", "src/mesh2.cpp:62-71 (regions)"]}
{"id": "C80", "title": "Condensing rounded crossings loses nothing and stays within the group", "statement": "When the crossings of an edge (or of the chords in a triangle) are grouped by the grid planes they lie on and groups are condensed - which only has an effect when rounding has split one crossing into several - then, whatever parameters and planes rounding produced: no crossing is lost and none is invented, groups are only merged into groups on more planes, afterwards no group remains whose planes are those of another group minus one, and the parameter reported for a group of an edge lies between two of the parameters of the group (hence in (0,1)).", "quantifier": "every dimension, every family of groups with arbitrary parameters and masks", "why_tests_cant": "The step only matters for rounding coincidences, which tests cannot enumerate; the claim covers every input to the step, of any size.", "anchors": ["include/mandoline/construction/facet_intersections_impl.hpp:159-207 (condensation and averaging)", "include/mandoline/construction/facet_intersections_impl.hpp:375-409 (convex_grid_condensation)"]}
{"id": "C81", "title": "Line segments: the projection is the nearest point, interpolation and scaling act point by point", "statement": "For every segment and every point p, project(p) is a point of the segment, no point of the segment is closer to p, and distance(p) is the distance to it - also if the segment is degenerate. interp(0) and interp(1) are the end points, interp(t) lies on the segment for t in [0,1], translating, scaling, dividing and component-wise products commute with interp, and length() is the distance of the end points.", "quantifier": "every dimension, every segment (degenerate ones included), every query point and parameter, in exact real arithmetic", "why_tests_cant": "Nearest-point is a claim about infinitely many competitors on the segment for every query point; a test compares a few.", "anchors": ["include/mandoline/line.hpp:6-38 (Line)", "include/mandoline/line_impl.hpp (project, distance, interp, cwiseProduct, cwiseQuotient)"]}
{"id": "C82", "title": "Triangulating a face with holes: what the library gets, and what its answer becomes", "statement": "triangulate_triangle gives the triangulation library one vertex per vertex of the face, at its position, and one edge per edge of every loop. If the library adds no vertex, the triangles returned are the library's with each corner replaced by the mesh vertex it stands for, restricted to those whose centre has total winding number above 1/2 in absolute value (or all of them if none has), so every corner is a vertex of the face. If it adds vertices and that is allowed, they are returned in the plane of the face and the triangles refer to them. If vertices are added although not allowed, the code reads columns of an empty matrix before it drops the result (a defect). Where the winding numbers of the loops jump across the edges of the library's triangles as winding numbers do and are zero or one, the triangles returned have exactly the loops of the face as their border and their areas add up to the area of the face (reversed if the winding number is minus one).", "quantifier": "every face with any number of loops, every answer of the triangulation library, every winding number function", "why_tests_cant": "The renumbering and filtering must be right for every library answer; tests see the answers of one library version on a few faces.", "anchors": ["src/cutface.cpp:63-193 (CutFace<3>::triangulate_triangle)"]}
{"id": "C83", "title": "The cached triangulation of a face: right without added vertices, wrong with them", "statement": "If the triangulation of a face added no vertices, compact_triangulated_face returns the triangles on the mesh vertices they name. If vertices were added, triangles are numbered from the first added vertex but looked up in a list that starts with all mesh vertices, so every corner below the number of mesh vertices is drawn at an unrelated mesh vertex; triangulating again without adding vertices keeps the old added vertices in the cache; and added vertices are mapped to world space twice. Caching the same result twice is the same as caching it once.", "quantifier": "every mesh, every triangulation, every cache history of two stores", "why_tests_cant": "Tests use faces whose triangulations need no added vertices; the defects concern every face that does.", "anchors": ["src/cutface.cpp:7-21 (cache_triangulation)", "src/mesh3.cpp:420-429 (triangulate_face)", "src/mesh3.cpp:598-618 (compact_triangulated_face)"]}
{"id": "C84", "title": "2D pipeline, from the input curve to the boundary operator", "statement": "For a 2D cut mesh built from an admissible planar input (vertices inside the grid box, no degenerate edge, no near miss of a grid line within the snapping tolerance, edges meeting only at vertices), under every schedule of the parallel baking and every tie-breaking of the sorts and of the union-find: a grid cell is a cut cell iff it contains a point of the input; every cut edge from the input lies on a grid line iff it is listed a second time as a grid edge; every other cut edge has different ends, the mask of its grid lines, and an active cell next to it; the loops found on the cut graph partition its half-edges, each loop next to a cut cell stays in that cell and is assigned to it, and the signed areas of the loops of a cut cell add up to the area of the cell. If the loops are nested into faces without mixing cells, every cut edge that is neither doubled nor dangling has exactly two opposite sides (or lies on the domain boundary), and for an input with no edge on a grid line and no dangling edge the boundary operator without the domain boundary maps constants to zero.", "quantifier": "all admissible planar inputs (any number of vertices and edges, any grid), all schedules of the parallel sections, all orders of ties, all union-find representatives", "why_tests_cant": "the chain of stages has to agree on every planar input and every schedule; tests use a handful of meshes and one schedule each", "anchors": ["src/construction/generator2.cpp:bake_faces", "src/construction/generator.cpp:compute_planar_hem", "include/mandoline/construction/generator_impl.hpp:bake_edges", "include/mandoline/construction/cutdata_impl.hpp:bake"]}
{"id": "C85", "title": "Region queries of a 3D mesh", "statement": "cell_faces lists the boundary faces of a cut cell once each in increasing order. regions(true) classifies each cut cell by the signs of its pieces of the input surface: 1 without such pieces, 2 with more positive than negative ones, 3 otherwise; exterior cells get 1. face_regions() holds for each region number up to the largest exactly the pieces of the input surface on the boundary of cut cells of that region, those with positive and those with negative sign separately, so a piece that bounds exactly one cut cell with a given sign appears for exactly one region; orig_face_regions() holds the input triangles of those pieces; boundary_faces() marks exactly the pieces of the input surface.", "quantifier": "all 3D cut-cell meshes, all cells, faces and region numbers", "why_tests_cant": "the sets have to be right for every mesh and every labelling of cells by regions", "anchors": ["src/mesh3.cpp:124-228 (cell_faces, regions, face_regions, orig_face_regions)", "src/mesh3.cpp (boundary_faces)"]}
{"id": "C86", "title": "Region centroids of a 3D mesh (defect)", "statement": "region_centroids() should return the centre of mass of each region. For a region other than 0 whose bounding mesh triangles bound a solid of non-tiny volume the code returns 4/3 of the centre of mass (relative to the world origin), so a coordinate is right only if it is zero and moving input and grid together by d moves the result by 4/3 d; for region 0 without mesh triangles it returns the lower corner of the grid scaled by box/(1+box), never the centre of a grid with non-negative lower corner unless that is zero.", "quantifier": "all closed surfaces (tetrahedralised solids), all translations, all grids", "why_tests_cant": "the factor shows only against the exact centre of mass of arbitrary solids", "anchors": ["src/mesh3.cpp:230-276 (region_centroids)"]}
{"id": "C87", "title": "Centroids and active cells of a 3D mesh", "statement": "cell_centroids() gives for a cut cell the average over its faces of the average of each face's boundary vertices; it lies in every axis-aligned slab containing the vertices of the cell and strictly below its top unless all vertices lie there, so the grid cell computed from it is the grid cell of the cut cell; face_centroids() gives the vertex average of each face (zero for an empty face); an adaptive cell gets its midpoint in world coordinates. active_cells() is exactly the set of grid cells of the cut cells, active_cell_count() its size, active_cell_mask() false exactly there. The centroid is not the centre of mass in general (pyramid: 4/15 instead of 1/4), and a flat cell on the upper side of its grid cell is counted for the next one.", "quantifier": "all 3D meshes, all cells and faces", "why_tests_cant": "membership must hold for every shape of cell; a test sees single shapes", "anchors": ["src/mesh3.cpp:63-108 (cell_centroids, active cells)", "src/mesh3.cpp:522-547 (face_centroids)", "include/mandoline/cutface_impl.hpp:100-122 (brep centroid)", "src/cutcell.cpp:149-160 (centroid)", "src/adaptive_grid.cpp:335-343 (cell_centroids)"]}
{"id": "C88", "title": "Vertex arrays of a mesh", "statement": "vertices() has one column per vertex: the world position of each grid vertex at its grid index, then the world positions of the cut vertices in order; vertex(i) agrees with column i for every index; grid_edge(c,t) joins c with the vertex one step along t. grid_space_vertices() however returns world positions for the cut vertices, so a cut vertex is right there exactly if its world and grid positions coincide (defect).", "quantifier": "all meshes in any dimension, all vertex indices, all grid origins and spacings", "why_tests_cant": "the index arithmetic has to be right for all grid shapes and counts", "anchors": ["include/mandoline/mesh_impl.hpp:6-101 (vertices, vertex, grid_edge, grid_space_vertices)"]}
{"id": "C89", "title": "Centroids of a 2D mesh", "statement": "centroids() has one column per cell. A cut face gets the centre of mass of the figure bounded by its loops, holes included, whenever no loop and not the whole figure has zero area; an exterior cell gets the midpoint of its corners at its global number; a face whose loop areas cancel (or without loops) divides by zero.", "quantifier": "all 2D meshes, all faces (any number of loops and holes), all exterior cells", "why_tests_cant": "needs the exact centre of mass of arbitrary polygons with holes", "anchors": ["src/mesh2.cpp:33-46 (centroids)", "include/mandoline/cutface_impl.hpp:84-98 (brep_centroid)"]}
{"id": "C90", "title": "Edge lengths, dual lengths and Hodge stars in 2D (partly defect)", "statement": "edge_lengths: a piece of an input edge has the input length times the covered parameter range, and pieces subdividing an input edge add up to its length; a piece of a grid line has its length with a sign (negative when it points downwards); unlisted edges have zero. dual_edge_lengths: the spacing normal to an axial cut edge, zero for pieces of the curve. dual_hodge1 and primal_hodge1 are inverse where both lengths exceed the threshold and the Laplacian weight of pieces of the curve is zero; primal_hodge2 is the reciprocal cell area. For exterior facets the primal and the dual length are exchanged, so both are right only for equal spacings, and a mesh without cut edges has no defined dual lengths (defects).", "quantifier": "all 2D meshes, all edges, all subdivisions of input edges, all grid spacings", "why_tests_cant": "tests use isotropic grids and few curves; the sums range over all subdivisions", "anchors": ["src/operators/volume2.cpp:47-136 (edge_lengths, dual_edge_lengths, hodge)", "include/mandoline/operators/volume_impl.hpp:17-34", "include/mandoline/exterior_grid_impl.hpp:107-120 (boundary_facet_volumes)", "src/operators/interpolation2.cpp:31-55 (edge_barycentric_volume_matrix)"]}
{"id": "C91", "title": "Operators on the cut curve in 2D (partly defect)", "statement": "surface_adjacency always ends; its keys are the vertices on the input curve and the entry of a vertex holds in some order the first and last piece ending there (or the only piece and -1). surface_dual_lengths is half the length of the pieces ending at the vertex when at most two do. Where at most two different pieces end at a vertex its column of surface_boundary has entries of opposite sign at them and zeros elsewhere, and surface_laplacian is symmetric, positive semidefinite, independent of the chosen orientation, and maps constants to zero on closed curves; it scales with the lengths (a Laplacian would scale inversely). The pieces are not consistently oriented along the curve: on a triangle surface_divergence of the constant is 2 on one piece (defect).", "quantifier": "all lists of cut edges (any curve, open, closed, branching), all lengths", "why_tests_cant": "termination and the algebra have to hold for every curve and edge order", "anchors": ["src/operators/diffgeo2.cpp:22-111 (surface_adjacency)", "src/operators/diffgeo2.cpp:124-166 (surface_dual_lengths, surface_boundary, surface_divergence, surface_laplacian)"]}
{"id": "C92", "title": "Facets on the domain boundary", "statement": "grid_boundary_faces of a mesh returns, once each and in increasing order, the cut facets all of whose vertices lie in one plane bounding the grid box, and, shifted by the number of cut facets, the exterior facets (2D) or adaptive faces (3D) with the outside of the domain on one side.", "quantifier": "all 2D and 3D meshes, all facets, all adaptive grids the factory builds", "why_tests_cant": "the coordinate tests and the dual-edge markers have to agree for every grid and every facet", "anchors": ["src/operators/boundary2.cpp:39-60 (grid_boundary_faces)", "src/operators/boundary3.cpp:39-73 (grid_boundary_faces)", "src/operators/boundary.cpp:5-13 (grid_boundary_faces)"]}
{"id": "C93", "title": "Face areas in 3D", "statement": "face_volumes() of a mesh with input triangles has one non-negative entry per face. The entry of a piece of the input surface is the area of its polygon (the length of its vector area), since its area in barycentric coordinates times twice the triangle's area is exactly that; if the pieces of a triangle cover it once their areas add up to the triangle's area; the entry of a cut face in a grid plane is the area of the figure bounded by its loops, holes subtracted; the exterior faces follow. Without input triangles the cut faces have no entries, so the vector has the wrong length (defect).", "quantifier": "all 3D meshes, all faces, all polygons on all triangles in space", "why_tests_cant": "area formulas have to hold for arbitrary polygons with any number of corners and holes", "anchors": ["src/operators/volume3.cpp:28-70 (face_volumes)", "src/operators/interpolation3.cpp (face_barycentric_volume_matrix)", "src/barycentric_triangle_face.cpp:21-23 (volume)", "src/mesh3.cpp:407-420 (compute_subVs)"]}
{"id": "C94", "title": "Dual edge lengths in 3D", "statement": "dual_edge_lengths() has one entry per face: the grid spacing across the plane for a face between two cut cells, the world distance of the centres of the cut cell's grid cell and of the exterior cell for a face towards the exterior grid (again the spacing if that is a neighbouring unit cell; for a wider cell not the distance normal to the face), zero for pieces of the input surface and on the domain boundary. Hence dual_hodge2 is area over spacing between cut cells and zero on the surface and the domain boundary.", "quantifier": "all 3D meshes, all faces, all exterior cells of any width, all spacings", "why_tests_cant": "the value is decided by the last of several assignments over all cells and faces", "anchors": ["src/operators/volume3.cpp:73-131 (dual_edge_lengths, dual_hodge2, primal_hodge2)", "include/mandoline/adaptive_grid.hpp:31 (center)"]}
{"id": "C95", "title": "Which plane cells of a grid plane are active", "statement": "When the 3D generator prepares the planes of an axis, a cell of plane k is active exactly if one of the two grid cells on its sides is a cut cell, i.e. (with the cut cells the generator computes) if one of them, as a closed cube, contains a cut vertex; plane cells outside the plane grid are never active; a plane has data exactly if it has an active cell. Cut cells outside the grid make planes outside the grid.", "quantifier": "all grid shapes, all sets of cut cells / cut vertices, all axes and planes", "why_tests_cant": "the flags are built by insertion over all cut cells in any order and number", "anchors": ["src/construction/generator3_make_faces.cpp:96-129 (compute_axial_faces / axial half-edge data)"]}
{"id": "C96", "title": "Boundary edges of the active part of a plane", "statement": "The boundary edges kept for a grid plane are exactly the grid edges between an active plane cell and one that is inactive or outside the grid, given by the 3D indices of their two vertices in growing order; a loop counts as boundary loop exactly if each of its sides, in one of its directions, is one of those edges.", "quantifier": "all plane grids, all masks of active cells, all loops", "why_tests_cant": "the edge set is produced by a loop over a mask of any size and shape", "anchors": ["src/construction/generator.cpp:198-226 (boundary edges of the mask)", "src/construction/generator3_make_faces.cpp:23-33", "src/construction/generator3_make_faces.cpp:227-238 (is_boundary_cell)"]}
{"id": "C97", "title": "Exterior neighbours of cut faces in 3D", "statement": "A cut face that lies in exactly one grid plane and inside a grid cell has exactly two possible cells, the ones on the two sides of the plane. Its external_boundary is the outside of the domain (-2) on the first and last plane; otherwise, if it is a single loop of four vertices and exactly one of the two cells is an uncut cell of the grid, that cell; in all other cases it is unset. A face whose vertices are all grid vertices and whose sides run along grid lines is a single loop of four vertices, so the vertex count excludes no face towards an uncut cell.", "quantifier": "all grids, masks, normalised vertices and faces with any loops", "why_tests_cant": "the rule has to hold for all faces whatever the number of loops and vertices", "anchors": ["src/construction/generator3_make_faces.cpp:298-361 (compute_faces)", "include/mandoline/construction/generator_impl.hpp:1089-1091 (is_active_cell)"]}
{"id": "C98", "title": "Numbers of faces in grid planes", "statement": "Without TBB every cell of every plane of the three axes gets a number different from those of all other planes and of the cut mesh faces, cells keep their half-edges, and no face is lost when the faces are collected. In every schedule the numbers stay above those of the cut mesh faces. With TBB the three axes race on the counter: two faces can get the same number and one of them is lost (defect); also without TBB a plane without a proper cell resets the counter to 0 (defect).", "quantifier": "all numbers of planes and cells per axis, all interleavings of the three axis tasks", "why_tests_cant": "a race: schedules cannot be enumerated by tests", "anchors": ["src/construction/generator3_make_faces.cpp:141-255 (compute_faces_axis)", "src/construction/generator3_make_faces.cpp:286-296 (compute_faces)", "src/construction/generator3_make_faces.cpp:363-406"]}
{"id": "C99", "title": "Faces made in a grid plane", "statement": "A loop of a grid plane becomes (part of) a face exactly if its half-edge cell has non-negative area, it has more than two vertices, no input face with its normal along the axis already has the same least edge, and, if it runs along the boundary of the active part of the plane, one of the two grid cells on its sides is cut. There is one face for each half-edge cell with such a loop, made of exactly those loops, with the unit vector of the axis as normal and marked as lying exactly in those grid planes that contain all its vertices.", "quantifier": "all planes, half-edge meshes, input faces and loops", "why_tests_cant": "a decision over arbitrary loops and sets of input faces", "anchors": ["src/construction/generator3_make_faces.cpp:408-497 (compute_faces_axis(idx, cidx))"]}
{"id": "C100", "title": "Assembling the 3D mesh", "statement": "generate succeeds exactly if every number used for a mesh face, an axial face or in a cell is the number of a face. The faces of the mesh are those of the generator in the order of their numbers; mesh faces, axial faces and cells refer to the same faces as before, with the same signs, regions and payload. The grid cell stored for a cell is x exactly if x is the only grid cell that contains all vertices of its non-folded faces, and is left uninitialised otherwise. The list of folded faces is copied without renumbering; it is right if all folded faces are cut mesh faces, otherwise it can name other faces or none (defect).", "quantifier": "all generator states with any face numbers, cells and vertices", "why_tests_cant": "renumbering and intersection of possible cells have to be right for every set of numbers and cells", "anchors": ["src/construction/generator3.cpp:33-158 (generate)"]}
{"id": "C101", "title": "From the faces to a two-sided boundary operator in 3D", "statement": "For every set of faces with clean loops, the mesh built by collapsing cells, removing the outer cells, setting the external signs and assembling has the following property: a face seen by two cells is a correct facet of the boundary operator (two cut cells with opposite signs, or one cut cell and one exterior cell or the outside with opposite signs) exactly if it has no exterior neighbour or exactly one of its sides is in a cell bounded by faces with exterior neighbours only. If that holds for all faces, the boundary operator annihilates constants on all cut faces. The cells never make assembling fail, and faces in the first or last grid plane always have an exterior neighbour. A grid cell cut only by pieces that do not reach its boundary loses its cut cell: the rows of its faces have one entry and constants are not annihilated (defect).", "quantifier": "all sets of faces of any size, all orders around edges, all union-find representatives", "why_tests_cant": "composition of four algorithms over arbitrary complexes", "anchors": ["src/construction/generator3.cpp:253-307 (bake_cells)", "src/construction/generator3.cpp:33-158 (generate)", "src/construction/cell_collapser.cpp:197-265 (remove_boundary_cells)", "src/operators/boundary3.cpp:7-39 (boundary)"]}
{"id": "C102", "title": "The edges of a generated mesh", "statement": "The set of edges a generator reports is exactly the set of end point pairs of the cut edges and the grid edges; edge_slice(d,c) is exactly the edges bound to coordinate c along d and axial_edges lists one entry per coordinate in use with the same edges. The generated mesh has one edge per cut edge, in order, then one per grid edge. In 2D a cut edge is a mesh edge with the index of the input edge and with a normal obtained by turning that edge; a grid edge is an axial edge with its axis and coordinate. In 3D cut edges carry the input edge, or the first bound axis and its coordinate for chords inside a triangle. The records of the cut edges of input edges interpolate the ends of the input edge to the ends of the cut edge. Grid edges bind every axis except the one they run along, to the coordinate both ends have. In 3D every grid edge is reported as a piece of input edge 0 (defect).", "quantifier": "all cut edges, grid edges, dimensions, axes and coordinates", "why_tests_cant": "lists of unbounded size, all edges", "anchors": ["include/mandoline/construction/generator_impl.hpp:821-934 (generate_edges, edges, edge_slice, axial_edges)", "include/mandoline/cutedge.hpp:33-115 (CutEdge)"]}
{"id": "C103", "title": "Cut vertices and the barycentric map", "statement": "The columns of cut_vertices() are the positions of the crossings off the grid, each once and each written; the row of the barycentric map of vertex r applied to any vertex data is the sum, over the crossings with index r, of the data interpolated on the input element that made the crossing. So a vertex made by one crossing gets its own position and row sum one, a vertex without a crossing the row zero; a vertex recorded by n crossings gets n times its position (defect).", "quantifier": "all input meshes, crossings, vertices and vertex data", "why_tests_cant": "ranges over arbitrary inputs; the defect appears only where crossings coincide", "anchors": ["include/mandoline/construction/cutdata_impl.hpp:319-345 (cut_vertices, cut_vertex_size)", "include/mandoline/construction/cutdata_impl.hpp:690-722 (barycentric_map)"]}
{"id": "C104", "title": "Handing input edges to a 2D generator", "statement": "For every list of pairwise different directed edges, the first add_edges stores each at its own column and records its index. If a directed edge is repeated, some column of the edge matrix is left uninitialised; a second call leaves the columns of all edges added earlier uninitialised (defects).", "quantifier": "all edge lists and all records of earlier calls", "why_tests_cant": "all input lists and call histories", "anchors": ["include/mandoline/construction/generator_impl.hpp:198-243 (add_edges)", "src/construction/generator2.cpp:24-27 (add_boundary_elements)"]}
{"id": "C105", "title": "What the grid cell validation accepts", "statement": "grid_cells_fully_utilized succeeds exactly if in every grid cell with cut cells the volumes of these add up to the cell volume (relative error at most 1e-5) and every grid cell marked in the mask contains a cut cell. As the mask of a 3D mesh is never filled in, the check fails for every mesh with an uncut grid cell; cut cells in unmarked cells or outside the grid never change the verdict (defects).", "quantifier": "all grids, masks, cell volumes and cut cells", "why_tests_cant": "characterises the verdict on every mesh", "anchors": ["tools/validation/grid_cells.cpp:6-52 (grid_cells_fully_utilized_count, grid_cells_fully_utilized)"]}
{"id": "C106", "title": "What the volume validation accepts", "statement": "With region ids below the number of input regions, volume_check succeeds exactly if at most one region has the volume of the input region (to a thousandth of the domain): a mesh with two or more regions and exactly the right volumes is rejected, one whose volumes are all wrong is accepted, and a region id equal to the number of input regions reads past the end (defects). The volumes of the input regions are the signed sums of their triangles and add up to zero over all regions.", "quantifier": "all volumes, regions and triangle meshes", "why_tests_cant": "characterises the verdict on every input", "anchors": ["tools/validation/region_volumes.cpp:128-171 (volume_check)", "tools/validation/region_volumes.cpp:38-58 (brep_region_volumes)"]}
{"id": "C107", "title": "The triangle mesh of a cut cell", "statement": "If the triangulation of every face of a cut cell has the loops of the face as its border (fan triangulations do, and so do the triangulations of faces with holes), triangulated_cell without flaps is watertight: every directed edge is used as often as its reverse, for every cell the collapser finds, including cells with faces that have both sides in the cell. With flaps, as compact_triangulated_cell asks, the border of the mesh is exactly the loops of the folded faces, so a cell with one folded face is not closed (defect). A face with an edge no other face uses is folded. The computed volume of a cell with folded faces changes when the mesh is moved, by the component of the folded faces' area along the move (defect). CutCell::get_mesh does not turn faces seen from behind, so the border of its mesh is twice the loops of those faces (defect). triangulated_with_additional_vertices draws every triangle where the face's own triangulation put it; triangulated_cell draws triangles of faces with their own vertices at unrelated mesh vertices (defect).", "quantifier": "all face lists without repeated or degenerate loops, all cells found, all triangulations, all vertex positions and moves", "why_tests_cant": "closedness of every cell of every mesh; tests see single meshes", "anchors": ["src/mesh3.cpp:548-597 (triangulated_cell, compact_triangulated_cell)", "src/cutcell.cpp:107-136 (triangulated_with_additional_vertices)", "include/mandoline/cutcell.hpp:78-88 (get_mesh)", "src/construction/cell_collapser.cpp (bake, folded_faces)"]}
{"id": "C108", "title": "The pieces of an input triangle", "statement": "For every input triangle whose crossings are separated by more than the snapping tolerance, vptr_faces throws nothing and returns exactly the pieces into which the grid planes cut the triangle: every point of the triangle on no grid plane (other than a plane containing the triangle) is inside exactly one polygon, every polygon contains such a point and is listed once, lies in one closed grid cell, has exact vertex positions and barycentric coordinates, is oriented like the triangle, and the areas add up to the area of the triangle. No directed side occurs twice, and a side also occurs reversed exactly if it is not on the boundary of the triangle. This holds for every order of vertex addresses, every sort of the neighbours, every outcome of the hole test and every union-find.", "quantifier": "all triangles and grids meeting the separation hypotheses, in every dimension; all address orders and library choices", "why_tests_cant": "a tiling statement about arbitrarily many planes across arbitrary triangles", "anchors": ["include/mandoline/construction/facet_intersections_impl.hpp:456-505 (vptr_faces)", "include/mandoline/construction/facet_intersections_impl.hpp:411-425 (boundary_vptr_edge)", "include/mandoline/construction/facet_intersections.hpp:240-366 (gvertices, barycentric_coords, nobdry_edges, vptr_edges, get_vptr)", "include/mandoline/construction/face_collapser.hpp:169-271 (merge_faces)"]}
{"id": "C109", "title": "The cut surface", "statement": "For every triangle mesh that meets the separation hypotheses, and whatever the schedule of the parallel loops, the order of vertex addresses and the choices of the libraries, CutData::bake yields: vertex indices such that equal indices mean equal positions and conversely; for each input triangle, as the cut faces with that parent, exactly the polygons into which the grid cuts it, each once, as vertex indices in the orientation of the triangle, with the grid planes containing the triangle as mask; for each input edge, the cut edges that run through all its crossings in order, each once; and an edge of the cut surface is a side of a cut face exactly if it is a cut edge of a triangle. The boundary of the cut surface is the boundary of the input surface cut at the grid: neighbouring triangles share all vertices along a common edge, so if the input is closed then so is the cut surface.", "quantifier": "all triangle meshes (not only manifold ones), grids and dimensions meeting the hypotheses; all schedules, address orders, edge table orders and library choices", "why_tests_cant": "a statement about all meshes and all interleavings; a crack between two triangles would need a particular mesh to show", "anchors": ["include/mandoline/construction/cutdata_impl.hpp:85-268 (bake)", "include/mandoline/construction/cutdata_impl.hpp:434-510 (flat_*_intersections, compute_crossings)", "include/mandoline/construction/cutdata_impl.hpp:549-556 (gv_index_map)", "include/mandoline/construction/facet_intersections_impl.hpp:507-519 (faces)", "include/mandoline/construction/facet_intersections.hpp:195-215 (TriangleIntersections)"]}
{"id": "C110", "title": "A cut cell stays in its grid cell, and the cut cells of a grid cell fill it", "statement": "The cells are built only by turning around edges from face to face; grid cells are never compared. Still, if the walls of a grid cell are covered by faces (from every face edge in a wall there is a face in both directions along the wall that stay in the cell), then for each cut cell either all its face sides or none face the inside of that grid cell; each side of a face faces exactly one grid cell. The grid cell that generate can store for such a cut cell (the only one containing all vertices of its unfolded faces) exists and is this grid cell. If moreover the faces in each wall have the area of the wall and no face facing the grid cell has both sides in one cell, the reported volumes of the cut cells facing the grid cell add up to the volume of the grid cell.", "quantifier": "all lists of flat faces each inside a grid cell with non-degenerate edges and normals along their area, all orders around the edges that are counter-clockwise, all union-find representatives, all grid cells with covered walls, all origins and spacings", "why_tests_cant": "Arbitrary numbers of faces around edges and chains of turns of any length; geometric, over all positions.", "anchors": ["include/mandoline/construction/cell_collapser.hpp:66-163 (bake, merge, merge_around_edge)", "src/construction/generator3.cpp:104-147 (generate)", "src/operators/volume3.cpp:6-28 (cell_volumes)", "tools/validation/grid_cells.cpp:7-47 (grid_cells_fully_utilized_count)"]}
{"id": "C111", "title": "The mesh passes its own grid-cell validation", "statement": "From the generator's faces through bake_cells, generate, cell_volumes and the validation tool: if every grid cell that a kept cut cell faces has walls covered by faces of full area, no folded face in it, and each cut cell in it has a face with no uncut neighbour, then every cell of the mesh gets a grid cell, namely the one its face sides look into; the volumes reported for the mesh cells with the same grid cell add up exactly to the volume of that grid cell; and grid_cells_fully_utilized accepts the mesh if and only if every grid cell marked in the mask has a cell of the mesh (the volumes never make it fail, whatever the spacing and origin).", "quantifier": "all lists of clean flat faces numbered from 0, all counter-clockwise orders around edges, all union-find representatives, all origins, positive spacings, masks and visiting orders of the grid", "why_tests_cant": "Joins five stages of the program for arbitrary meshes; a test can only sample meshes and the tool itself accepts an error of 1e-5.", "anchors": ["src/construction/generator3.cpp:33-158 (generate)", "src/construction/generator3.cpp:253-307 (bake_cells)", "src/operators/volume3.cpp:6-28 (cell_volumes)", "src/cutcell.cpp:139-148 (CutCell::volume)", "tools/validation/grid_cells.cpp:6-50 (grid_cells_fully_utilized)"]}
{"id": "C112", "title": "The faces made in the grid planes cover the walls of a cut grid cell", "statement": "C110 and C111 assume walls covered by faces. In a grid plane, if the planar graph of the cut edges contains the boundary of a unit square and has different vertices at different places and different directions at each vertex, the half-edges with the square on their left sweep exactly the area of the square. If moreover all edges of faces lying in the wall are edges of the graph and each half-edge with the wall on its left is on exactly one face in the wall (faces whose normal points against the axis counted with reversed edges), then the wall is covered on both sides of each of its edges and the faces in it have total area one. The faces that the generator makes from the loops of the plane have this property if every loop inside the wall is kept and no other face lies in the wall. So with such walls the mesh passes the grid-cell volume validation exactly if every active cell has a cut cell.", "quantifier": "all planar graphs of any size with rational vertices, all grid cells and axes, all lists of faces, all half-edge meshes of the plane, all origins and spacings", "why_tests_cant": "Arbitrary numbers of vertices on each side of a square and arbitrary subdivisions of a wall; the sum over half-edges telescopes only if no vertex is missed or doubled.", "anchors": ["src/construction/generator3_make_faces.cpp:408-497 (compute_faces_axis)", "src/construction/generator.cpp:80-138 (compute_planar_hem)", "include/mandoline/construction/cell_collapser.hpp:66-163 (bake)", "tools/validation/grid_cells.cpp:7-47 (grid_cells_fully_utilized)"]}
{"id": "C113", "title": "What the pairing validation of a mesh accepts", "statement": "The validation tool's pairing check of a cut-cell mesh accepts exactly the meshes in which: within the cells of one region no face is listed more than twice, and a face listed once there lies on an input triangle or has a first loop of four vertices; if there is any cell, face number 1 lies on an input triangle or has a first loop of four vertices (the code compares the face's number, not its count, with 1); over all cells no face is listed more than twice and none is listed from the negative side two times more often than from the positive side; and every face listed once in total is folded, has an exterior neighbour, or has no loop of grid vertices between two grid cells inside the domain. So it rejects correct meshes whose face 1 is a cut polygon with another number of vertices, and accepts a face both of whose cells are on its positive side while it rejects the mirrored case. A generated mesh (C101) whose regions are those of C39 passes exactly if its once-listed grid-plane faces start with four-vertex loops and face 1 passes.", "quantifier": "all meshes: all lists of faces, loops, cells, regions and sides, all grids; for the last part all generator runs", "why_tests_cant": "The acceptance condition is a statement about every mesh; a test can only show some accepted and rejected meshes, and the comparison with the face number is invisible unless face 1 has the wrong shape.", "anchors": ["tools/validation/paired_boundary.cpp:5-87 (paired_boundary)", "tools/validation/possible_cells.cpp:5-30 (possible_cells)"]}
{"id": "C114", "title": "The self-checks of the 3D generator and its area normals", "statement": "The containment check of a generator accepts exactly the generators for each of whose faces some grid cell contains all vertices of the face. The utilization check accepts exactly the generators each of whose faces is listed by some cell or is excused because one of its loops has the ordered smallest edge of an input face in the same grid plane direction; in a generator run it fails exactly if a face that is not excused has a cell with exterior neighbours only on each of its sides. The area normal of a loop does not depend on where the polygon lies, but it is three times the area vector for every triangle and twice the area vector for every quadrangle, and for a pentagon it may point to the opposite side.", "quantifier": "all generators: all normalised vertices, lists of faces and loops, cells; all generator runs with two-sided faces; all vertex positions", "why_tests_cant": "The checks are claims about all meshes; the sign error of the area normal appears only for non-convex polygons with at least five vertices.", "anchors": ["src/construction/generator3.cpp:490-574 (area_normal, check_face_utilization, check_cell_containment)", "tools/make_cutmesh_from_cmdline.cpp:196-201 (main)"]}
{"id": "C115", "title": "Vertices of the generator and of the mesh", "statement": "Each crossing (input vertex, edge crossing or triangle crossing) is the mesh vertex with its index, at its world position. The mesh vertices behind the grid vertices are exactly the distinct crossing positions that are not grid vertices, distinct numbers are distinct places, and num_vertices is the number of grid vertices plus the number of these places. All views of the generator (V, all_V, all_GV, GV, num_vertices) and of the mesh (vertex, masked_vertex, vertices, num_vertices) agree on them. Without thresholding each input vertex is exactly one mesh vertex, at the same place; input vertices that are not grid vertices are reported as original, and only these if the input vertices are distinct and off the grid vertices. The vertex reindexer is the identity. The intended further claims fail: the grid-space vertices of the mesh are in world coordinates for cut vertices; the generator's vertex(i) and compact_vertices take the input vertex by number, which is another vertex than the crossing of that number if an input vertex lies on a grid vertex or is repeated.", "quantifier": "all grids, all input vertices and all lists of normalised crossing vertices with exact flags, all vertex numbers", "why_tests_cant": "Agreement of the numberings is a claim about all inputs; the wrong vertex appears only when an input vertex coincides with a grid vertex or with another one.", "anchors": ["include/mandoline/construction/generator_impl.hpp:159-186 (bake_vertices), :360-436 (vertex_reindexer, vertex, compact_vertices), :511-548 (V, all_V, all_GV), :792-820 (generate_vertices)", "include/mandoline/construction/generator.hpp:101-116 and 175-220", "include/mandoline/mesh_impl.hpp:5-86"]}
{"id": "C116", "title": "The faces_fully_utilized validation", "statement": "The validation of the faces has a result exactly if the mesh has a piece of the input surface. It then accepts exactly if no piece has negative barycentric area, the pieces of each input triangle have in total the area of the triangle up to 1e-5, and the weights of each grid face add up to one up to 1e-5. With exterior cells of width one, the exterior grid gives weight one to exactly the grid faces between two exterior cells; the cut faces in a grid face give it their area, counted negatively if they face against the axis, so a grid face filled by cut faces gets one minus twice the area facing against the axis. It is accepted if all grid faces are between exterior cells or filled along the axis. Defects: a grid face on the boundary of the domain beside an exterior cell, and a grid face inside a wider exterior cell, get weight zero, and surface pieces in a grid plane facing against the axis count negatively, so correct meshes are rejected.", "quantifier": "all cut meshes (any faces, pieces, exterior cells), all grid shapes", "why_tests_cant": "Quantifies over all meshes; the equivalence and the closed form of the weights cannot be sampled.", "anchors": ["tools/validation/faces_fully_utilized.cpp:7-37 (faces_fully_utilized)", "src/operators/interpolation3.cpp:29-51 (face_barycentric_volume_matrix)", "src/operators/interpolation3.cpp:88-128 (face_grid_volume_matrix)", "src/adaptive_grid.cpp:424-461 (grid_face_projection)", "tools/validation/cutmesh_validation.cpp:29"]}
{"id": "C117", "title": "planar slicer: which plane is cut and what is kept", "statement": "Slicing a triangle mesh by a plane keeps of the surface exactly the part that is not below the plane: of the polygons into which the slicer's grid cuts an input triangle, those with no vertex below the plane are kept, every point of the triangle on no grid plane and not below the plane is in exactly one of them, no point below the plane is in any, and the corners of the result are at the points of the input triangle in the user's coordinates; the triangles of the result have the border of the kept polygons. The middle plane of the grid is the sliced plane, and all vertices are strictly inside the grid in the direction of its normal if some vertex is off the plane. Defects: slice(origin, direction) cuts through the given origin for every origin only if the third row of the basis equals the third row of its inverse, so for an orthonormal basis with normal x and origin (1,0,0) it cuts x = 0; in the two other directions a mesh away from the origin is not inside the grid; a mesh lying in a plane x = c, y = c or in the sliced plane gets a grid of spacing 0; vertices added to the closing faces are not transformed back.", "quantifier": "every triangle mesh whose baked surface meets the conditions of the cut-surface property, every affine transformation with an inverse, every origin and basis, every point of every triangle, every schedule and choice inside the library", "why_tests_cant": "tests slice a few meshes through the origin, where the wrong translation is invisible, and look at the picture; that every point of every triangle is kept exactly once on the right side needs an argument about all polygons the grid can produce", "anchors": ["src/tools/planar_slicer.cpp:13-19 (SliceGenerator::get_transform)", "src/tools/planar_slicer.cpp:33-58 (SliceGenerator::update_embedding)", "src/tools/planar_slicer.cpp:60-63 (SliceGenerator::slice)", "src/tools/planar_slicer.cpp:64-175 (SliceGenerator::slice)", "include/mandoline/construction/cutdata_impl.hpp:321-345 (CutData::cut_vertices)", "src/cutface.cpp:49-52 (CutMeshFace<3>::triangulate)"]}
{"id": "C118", "title": "Exterior cell valences of the validation tool", "statement": "exterior_grid_valences of a generated 3D mesh reads the ownership grid only inside the grid and gives each exterior cell its number of neighbours: pairs of a side of the cell and something found across that side, where a neighbour is the outside of the domain, another exterior cell, or a cut unit cell of the grid. So exterior_cell_valence_counts (every valence is 6) accepts exactly the meshes in which every exterior cell has a single neighbour on each side. Meshes whose exterior cells all have width one are accepted; every correct graded mesh is rejected, because a wide cell next to a narrower exterior cell, or a cell of width at least two next to a cut unit cell, has several neighbours on that side.", "quantifier": "all grid shapes, all disjoint families of exterior cells with the factory's ids, all numbers of cut cells, all lists of cut faces that record each facet between an uncut and a cut unit cell once", "why_tests_cant": "Quantifies over all adaptive grids and all records of the cut faces.", "anchors": ["tools/validation/external_cell_valences.cpp:4-53 (exterior_grid_valences)", "tools/validation/external_cell_valences.cpp:55-66 (exterior_cell_valence_counts)", "src/adaptive_grid.cpp:233-320 (faces)"]}
{"id": "C119", "title": "Boundary operator of a 3D mesh after saving and loading (defect)", "statement": "Loading a saved 3D mesh rebuilds the exterior faces from the renumbered cells, so their dual edges name the current ids, and the face queries that use the dual edge directly (C62) are right again. But boundary() looks the dual edge up as if it were the linear index of a unit cell: in a loaded mesh the column of a side with id c is the owner of the unit cell with linear index c, -1 if that unit cell was cut, and the read is outside the grid if there are not that many unit cells. The row of a face between two exterior cells names these cells exactly if the unit cells with their ids as linear indices happen to lie in them; so saving and loading changes the boundary operator.", "quantifier": "all grid shapes, all disjoint families of exterior cells, all numbers of cut cells, all faces", "why_tests_cant": "Quantifies over all adaptive grids and all numbers of cut cells.", "anchors": ["src/mesh3.cpp:394-400 (from_proto)", "src/adaptive_grid.cpp:318-320 (make_faces)", "src/operators/boundary3.cpp:75-97 (boundary_triplets)", "src/construction/generator3.cpp:323-335 (bake_cells)"]}
{"id": "C120", "title": "Preparing the pressure system: empty columns and face fractions", "statement": "fix_axis_aligned_indefiniteness changes a linear system only at the unknowns whose column is entirely zero (zeros that are stored count as zero): those receive a one on the diagonal and a zero on the right-hand side; every other entry and component keeps its value. The energy x'Mx grows by exactly the squares of those unknowns, so a positive semi-definite matrix stays so, and becomes positive definite if these unknowns were the only reason it was not. For a symmetric matrix the new system says: the old equations of the non-empty rows, and zero for the empty unknowns. Doing it twice changes nothing more. Only columns are examined: in a non-symmetric matrix an unknown with an empty column and a non-empty row is not set to zero. grid_edgeratio returns, for every face in the numbering of the grid divergence, the inside fraction of the values at the two end vertices of that face; every entry is written once and no value outside of the vertex grid is read.", "quantifier": "all square sparse matrices of every size and right-hand sides; all grid sizes and all vertex data, every fraction function", "why_tests_cant": "Definiteness and the solution set are statements about all vectors; the index arithmetic must hold for every grid shape.", "anchors": ["src/diffgeo_utils.cpp:46-81 (grid_edgeratio)", "src/diffgeo_utils.cpp:82-94 (fix_axis_aligned_indefiniteness)", "examples/laplacian/setup.cpp:34-46 (fix_axis_aligned_indefiniteness)"]}
{"id": "C121", "title": "The closing faces of the planar slicer", "statement": "The edge list that the slicer reads (stl_edges) holds, in ascending order, once each and with the smaller index first, exactly the pairs of different vertices that are the ends of a cut edge, and these are the sides of the cut faces. The closing faces are made from exactly those with both ends in the sliced plane. If the input surface is closed, the part of it that is kept is open only along these edges. The closing faces pass such an edge forward if the planar cell on its left has positive area, backward if the one on its right has, and have no border if both or neither has; every such edge has exactly one cell on either side, and the closing faces have no other border. So the result is a closed surface exactly if at each of these edges the kept surface makes up for this. Refuted: the cells inside and outside an inner loop are both closed over (holes are covered), so that a kept surface that ends at such a loop leaves the result open; and the closing faces run counter-clockwise as seen from the kept side, which for a surface oriented outward is the same direction as that of the kept surface, so the result is not consistently oriented.", "quantifier": "all triangle surfaces, all parallel executions of bake, all planar subdivisions of the edges in the plane (and any triangulations of its cells that have the border of the loops)", "why_tests_cant": "The border of the result depends on how the surface crosses the plane everywhere, with any nesting of loops, and on the outcome of the parallel cutting.", "anchors": ["src/tools/planar_slicer.cpp:81-134 (closing faces)", "include/mandoline/construction/cutdata_impl.hpp:593-687 (edge_edges, face_edges, stl_edges)", "include/mandoline/construction/facet_intersections.hpp:353-364 (vptr_edges)"]}
{"id": "C122", "title": "Which loops of a grid plane are joined into faces with holes", "statement": "When a grid plane is divided into loops, the loops joined into faces with holes are exactly those that lie with all their vertices in the same closed grid cell, cell by cell and only where a second loop is in the cell. A loop inside another one (in the convex hull of its vertices) is therefore always handed on together with it. A loop that lies in two grid cells lies on a single grid line, so no other loop is joined twice. Refuted for those: a segment on a grid line is joined with the loops of the cells on both sides. In a plane without a mask the boundary edges are exactly the edges with both ends on the same side of the domain.", "quantifier": "all planar half-edge meshes on cut vertices, all vertex positions, all grid cells", "why_tests_cant": "Nesting and position of the loops are arbitrary; a lost hole shows only for particular arrangements.", "anchors": ["src/construction/generator.cpp:75-163 (compute_planar_hem)"]}
{"id": "C123", "title": "The winding number check of the validation tool looks at one cell only", "statement": "pcwn_count asks for the mesh of cell number 1 in every turn of its loop over the cells (the argument true is taken as the cell index). So it returns (number of cut cells, 0) if the mesh of cell 1, faces with both sides in the cell included, passes the winding number test and (0, number of cut cells) otherwise; pcwn_check is true exactly if there are no cut cells or cell 1 passes. Refuted: that a bad cell is found (whatever the other cells are, the answer is the same), that the two numbers count good and bad cells (wrong as soon as one cell differs from cell 1), and that cells of a generated mesh pass: if cell 1 has one face with both sides in it, all cells are reported as bad, although each is closed without such faces. If no face of cell 1 has both sides in it, a generated mesh passes.", "quantifier": "all meshes, numbers of cells, triangulations of the faces, and winding number tests (for the part on generated meshes: any test accepting exactly closed meshes)", "why_tests_cant": "On meshes whose cells are all good the answer is right; which cell is bad is arbitrary.", "anchors": ["tools/validation/pcwn_count.cpp:6-33 (pcwn_count, pcwn_check)", "include/mandoline/mesh3.hpp:142 (CutCellMesh<3>::triangulated_cell)", "src/mesh3.cpp:546-587 (CutCellMesh<3>::triangulated_cell)"]}
{"id": "C124", "title": "The file written for a two-dimensional cut-cell mesh", "statement": "write_cutmesh2_plcurve: each cut edge that lies on an input edge is written with the labels of that input edge such that on each of its two sides it carries the label the input edge has there, whichever way it runs; other edges, and all edges when no input label is non-negative, get -1 -1. For a grid with at least two cells per axis the lines written for the exterior grid join exactly the end points of the grid edges that touch an exterior cell and touch no cut cell, each once, none left out; a side of an exterior cell is among them exactly if the cell on its other side is exterior or there is none. The element lines with number k are exactly the loops of cell(k) with their lengths, followed by the region of k. Exterior cells are written clockwise. read_plcurve reads the file like a curve file with these vertices and edges and ignores the elements; refuted: that a written mesh can be read again - with more edges than vertices (already a grid of 2 x 2 uncut cells) the reader writes outside its array.", "quantifier": "all two-dimensional meshes (vertices, cut edges and faces, masks of exterior cells, grid shapes), all input edges and labels", "why_tests_cant": "Which cells are exterior, which way an edge runs on its input edge and which loops a face has are arbitrary.", "anchors": ["src/tools/plcurve_io.cpp:143-234 (write_cutmesh2_plcurve)", "src/mesh2.cpp:154-172 (CutCellMesh<2>::cell)", "src/tools/plcurve_io.cpp:16-140 (read_plcurve)"]}
{"id": "C125", "title": "Dual edge lengths and corner numbers of the adaptive exterior grid", "statement": "dual_edge_lengths of the exterior grid has one entry per face. An entry is the distance between the centres of the two cells of the face exactly when the face has a cell on both sides; the entries of the faces on the boundary of the domain are never written (the returned vector is not initialised), and there are such faces as soon as a cell touches the boundary. Along the axis the dual edge bridges half of each width; across it the centres are at most half the difference of the widths apart; for equal widths the length is the spacing times the width; refuted: that it is the spacing times the mean width in general - in two or more dimensions it is strictly larger whenever the widths differ. AdaptiveGrid::face(cell, axis, side) writes only the first of the four vertex numbers it returns, and that vertex is a corner of the requested side of the cell exactly if the cell has width one.", "quantifier": "all grid shapes, collections of disjoint power-of-two cells inside the grid, spacings, faces, cells, axes and sides", "why_tests_cant": "Any adaptive subdivision, any size of the domain and any pair of adjacent cells of different size may occur.", "anchors": ["src/adaptive_grid.cpp:109-128 (AdaptiveGrid::face)", "src/adaptive_grid.cpp:321-335 (AdaptiveGrid::dual_edge_lengths)", "include/mandoline/adaptive_grid.hpp:30 (AdaptiveGrid::Cell::center)"]}
{"id": "C126", "title": "Areas of the cells of a two-dimensional mesh", "statement": "face_volumes of a 2D mesh returns one non-negative number per cell, cut cells first. An exterior cell gets the product of the spacings. A cut cell gets the absolute value of the area of the figure bounded by its loops, holes included; with from_triangulation the same number if the triangles have the loops as boundary. For the mesh made from an admissible planar input, under every schedule and every tie-breaking and every admissible nesting of the loops into cells (one always exists), the signed areas of the cut cells assigned to a cut grid cell add up to the area of the grid cell, every stored cut cell is assigned to a cut grid cell, and all the returned numbers add up to the area of the whole grid, unless some cut cell has negative signed area, in which case they add up to more.", "quantifier": "all 2D meshes, vertex positions, spacings, loops and triangulations; for the sums all admissible planar inputs, schedules, tie-breakings and nestings", "why_tests_cant": "The shapes and the number of the pieces of a grid cell depend on the input curve in arbitrary ways; the total must be exact for all of them.", "anchors": ["src/operators/volume2.cpp:11-44 (face_volumes)", "include/mandoline/operators/volume_impl.hpp:35-39 (cell_volumes)", "src/construction/generator2.cpp:200-254 (generate_faces)"]}
{"id": "C127", "title": "The volumes of all cells of a three-dimensional mesh", "statement": "cell_volumes(CutCellMesh<3>) has one entry per cell: the signed volumes of the cut cells in order, then the adaptive exterior cells in order, each w^3 times the volume of a grid cell. For a generated mesh whose cut grid cells have covered walls, the entries add up to the number of grid cells that hold a cut cell plus the number of grid cells that are not cut, times the volume of a grid cell; they add up to the volume of the whole grid box if and only if every cut grid cell holds at least one cut cell, and to less otherwise.", "quantifier": "all sets of faces with consistent orders around edges, all vertex positions, grid shapes, spacings and origins, all masks of cut grid cells, all levels of the adaptive grid for which its construction is defined", "why_tests_cant": "The decomposition of the cut grid cells into cut cells and of the rest into cubes is arbitrary; the identity is a global sum over all of them.", "anchors": ["src/operators/volume3.cpp:7-25 (cell_volumes)", "src/adaptive_grid.cpp:344-357 (AdaptiveGrid::cell_volumes)", "src/construction/generator3.cpp:321-335 (renumbering of adaptive cells)", "src/cutcell.cpp:139-148 (CutCell::volume)"]}
{"id": "C128", "title": "Directions of the cell loops and the triangles drawn for a 2D mesh", "statement": "For a two-dimensional mesh generated from an admissible planar input, `cell(i)` lists the cells in inconsistent directions: exterior cells are listed clockwise (signed area -dx*dy each) while cut faces are counterclockwise, so two cut faces or two exterior cells never go through an edge in the same direction, but a cut face and an exterior cell that share an edge always do, and the signed areas of all cells add up to the area of the grid minus twice the area of the exterior cells. `faces()` triangulates every loop of every cell by itself, so holes of cut faces are filled: its triangles cover the area of the grid plus twice the area inside the clockwise loops.", "quantifier": "all admissible planar inputs, schedules of the parallel bake, tie-breaks of the sort and the union-find, admissible nestings of loops into faces, iteration orders of the grid, origins and positive cell sizes; all cells and half-edges", "why_tests_cant": "it compares every pair of cells of every mesh; tests draw a few meshes and look at them, where overlapping triangles cannot be seen", "anchors": ["src/mesh2.cpp:50-58 (CutCellMesh<2>::faces)", "src/mesh2.cpp:155-172 (CutCellMesh<2>::cell)", "src/construction/generator2.cpp:186-255 (generate_faces)"]}
{"id": "C129", "title": "Facet masks of a domain boundary", "statement": "boundary_face_mask() and interior_face_mask() of a DomainBoundary should be 1/0 vectors marking the facets on the sides of the domain and the others. What holds: they fail together (exception or write outside the vector), and when they return they have one entry per facet, only 0 and 1, and are exact complements. But the marked facets are not the domain facets: facet k is marked exactly if some facet (k,b) has as positive side a cell whose number b is the number of a domain facet. On every exterior grid with at least two cells per axis and an exterior cell on a high side of the domain neither mask can be computed at all.", "quantifier": "all facet lists; all exterior grids of any dimension, shape and occupancy", "why_tests_cant": "Quantifies over all facet lists and all grids.", "anchors": ["src/domain_boundary.cpp:12-31 (boundary_face_mask, interior_face_mask)", "include/mandoline/domain_boundary.hpp:18-22"]}
{"id": "C130", "title": "Ownership of the generator through moves of DeformingGeometryConstructor", "statement": "For every program that constructs, move-constructs, move-assigns, uses and destroys DeformingGeometryConstructor objects: no generator is used after being destroyed or destroyed twice, and no two live objects share one; every object behaves as if it held its state by value, with a move handing the state to the target and leaving the source empty, so an object moved in the middle of its life emits what one unmoved object receiving all the calls would; the only failure is a call on an emptied object (null pointer), except bake() when nothing changed, which is a no-op. Defects: a move assignment onto an object that holds a generator leaks that generator, and nothing else ever leaks; moving an object onto itself empties it.", "quantifier": "all finite sequences of constructions, moves, assignments, calls and destructions over any number of objects", "why_tests_cant": "Quantifies over all histories of object lifetimes.", "anchors": ["src/construction/construct.cpp:35-49", "src/construction/construct.cpp:99-107 (move constructor, move assignment)", "include/mandoline/construction/construct.hpp:15-33"]}
{"id": "C131", "title": "Interactive wrapper and one-shot construction calls", "statement": "After any history of wrapper calls (editing box, shape, cube flag, level; setting the box; supplying meshes or vertices; generating), refreshing the grid, supplying the vertices and generating builds the mesh once, from exactly those vertices in the coordinates of the grid shown, the triangles supplied last and the level shown; once a parameter changed, the generator's grid is the one shown in every later state; the box is never inverted by what is typed. from_grid and from_bbox build what a freshly constructed constructor emits and ignore their threshold. Defect: update_mesh_and_bbox and update_vertices_and_bbox convert the vertices with the grid from before the call and then change the grid, so generating next builds the mesh with its vertices misplaced; calling twice repairs it.", "quantifier": "all histories of wrapper calls, all vertices, boxes, shapes, levels and thresholds", "why_tests_cant": "Quantifies over all call histories.", "anchors": ["src/construction/construct_imgui.cpp:5-98", "include/mandoline/construction/construct_imgui.hpp:8-35", "src/construction/construct.cpp:7-31 (from_bbox, from_grid)", "tools/make_cutmesh_gui.cpp:128-137 (update), 172-173 (make_ccm)"]}
{"id": "C132", "title": "The surface written by cutmesh_to_obj", "statement": "write_obj writes the same triangles whatever set of cells is asked for (defect: the vector of used cells is overwritten with ones). The faces written are exactly the cut faces on the side of the domain and the exterior faces with a cell on one side only; no face between two cells, so none of the cut surface in the interior, is written. A written cut face is oriented as on the surface of its cell; a written exterior face is inside out (defect). Were the indices honoured, a cut face between two cells would be written exactly if one of the two is asked for and the other is not, flipped if it is the one that sees the face with false.", "quantifier": "all meshes whose cut faces have one or two sides as the generator leaves them, all sets of cell indices", "why_tests_cant": "Quantifies over all meshes and index sets.", "anchors": ["tools/cutmesh_to_obj.cpp:8-112 (write_obj)", "tools/cutmesh_to_obj.cpp:147-186 (main)", "src/operators/boundary3.cpp:7-97", "src/adaptive_grid.cpp:181-196 (triangulated_face)"]}
{"id": "C133", "title": "From the command line to the generator", "statement": "The generator that obj_to_cutmesh bakes gets the triangles of the file, the level asked for (negative: zero), the shape read from three comma-separated fields (any other number of commas bakes nothing), and these vertices: a prescaled mesh as it is; otherwise v minus the middle of the bounding box, divided by the largest extent with --normalize. So translating the mesh does not change the result unless prescaled, and with --normalize scaling does not either. Without --prescaled the grid's box is symmetric about the origin and contains every vertex, a twentieth of the extent away from each wall; it is flat where the mesh is flat. The output stays in these coordinates. Defect: --prescaled --normalize puts the mesh around the corner of the grid, half of it outside.", "quantifier": "all meshes with at least one vertex, all options, all translations and scalings", "why_tests_cant": "Invariance under all translations and scalings, and the position of every vertex of every mesh.", "anchors": ["tools/make_cutmesh_from_cmdline.cpp:88-200 (make_generator)", "tools/make_cutmesh_from_cmdline.cpp:31-48 (options)", "tools/make_cutmesh_from_cmdline.cpp:201-224 (make_cutmesh)", "tools/obj_to_cutmesh.cpp:5-25 (main)"]}
