# Formal model of mtao/mandoline in Lean 4

## Approach

The C++ in /repo is read as text and modelled function by function with total, computable Lean definitions; every
definition cites the file and lines it models and says where it simplifies. Properties are stated against small
*specifications* (points in space, closed cells, sets of cells, matrices as sums of triplets, shortest descriptions of a
walk) which do not mention the model's helpers; the specifications are the `Spec` files and the definitions in the
sections called "Specification".

* Loops become folds or structural recursion. `std::map` is a sorted association list (`Core/OMap`) with `operator[]`
  (`alter`/`assign`), `emplace`/`insert` (first writer wins, `insertNew`) and `erase`; `std::set` is a map to unit. Map
  iteration is list iteration, so iteration order is the order of the comparator.
* Loops without an obvious bound (`while`) take fuel, and a theorem shows that the fuel given is enough.
* Undefined behaviour (empty fold, `*nullopt`, out-of-range index, `at` of a missing key) is a `none` outcome or an
  explicit decidable precondition.
* Where the code contradicts the property a user would expect, the model follows the code. The property listed in
  properties.jsonl then says what the code does; its negation of the intended property is proved with a witness
  (`..._refuted`), and what does hold is proved in full generality. The note in MANIFEST.json names these.
* Parallel loops (`#pragma omp`) are processes whose atomic steps may be interleaved in any order (`Sched`).

## Layout (lean/Verif/)

`Core` containers, lexicographic orders, grid indices, vectors. `Geom` masks, vertices, containers of vertices. `Edge`
crossings of input edges with the grid. `Tri` crossings of input triangles. `Cross` numbering of crossings, grid edges.
`Sched` parallel baking. `Collapse` planar face collapser. `Face2` 2D face generation. `Plane` axis-aligned slices in 3D.
`Cell` 3D cell collapser and cell volumes. `Exterior` uniform exterior grid. `Adaptive` adaptive exterior grid. `Ops`
boundary, Laplacian, Hodge, volume and mask operators. `Interp` barycentric and trilinear operators. `Region` regions.
`Mesh` point location and numbering. `IO` serialisation. `Life` the deforming-geometry constructor as a state machine.
`Tools` exploded mesh, planar curves, region volumes, hem, surfaces.

## Plan per property: what is modelled and how it is proved

| id | modelled code | method |
|----|-------|-------|
| C01–C03 | coord_mask comparison, subsumption, `&`, `-`, `\|` | the per-axis loop with early return is characterised by induction over the axes, then compared with inclusion of the affine sub-lattices the masks denote; `\|` refuted |
| C04, C20 | possible_cells / active_cells loop over `2<<D` bitsets | membership and cardinality for every D |
| C05–C10 | Vertex construction, repair, ordering, arithmetic, thresholding, approx | floor/fraction algebra over ℚ; approx refuted by witness and its exact set characterised |
| C11, C12 | masks and possible cells of containers of vertices, loops, cells | induction over lists |
| C13–C16, C56, C58, C59 | EdgeIntersections: per-axis reflection and ceil/floor loops, binning by mask, condensation, averaging, vptr edges | integer interval arithmetic; sorted chains; exact set of crossings; path and cell statements |
| C57 | active cell mask from edges | C16 with possible cells |
| C17, C18 | compute_crossings numbering, comparison of crossings | invariant of the fold; counterexample to transitivity |
| C19 | bake_edges: ordered maps per grid edge | sorted insertion, independence of insertion order |
| C21–C24, C29 | ExteriorGrid constructor, facets, boundary_facets, domain_boundary | induction over coordinates in any dimension; per-facet counting; exceptions characterised |
| C25–C28, C60–C65 | AdaptiveGridFactory levels and cells; AdaptiveGrid lookup, faces, renumbering, volumes, projections, triangulation | induction over levels; tiling as unique ownership; measure as count of unit cells |
| C30, C31 | Hodge weights, divergence, Laplacian as matrix products with run-time dimensions | algebra of finite sums; dimension mismatch in 3D |
| C32–C34, C72 | trilinear and barycentric operators; barycentric coordinates of crossings | finite sums; first-writer-wins map invariants |
| C35–C37, C67, C68 | FaceCollapser: half edges, unification, numbering, hole merging; angle comparator | permutations given by arbitrary cyclic orders; equivalence closures with an arbitrary disjoint-set policy; the comparator is a strict weak order by angle |
| C38, C69–C71 | CellCollapser: flap removal, half-faces, merging, closing, removal of outer cells | as above, plus signed incidence counts along every edge |
| C39 | regions in 2D and 3D | connected components; numbering fold |
| C40, C41 | SubgridTransformer; loop canonicalisation, duplicate faces in planes | case analysis on axes; list rotations |
| C42, C43 | protobuf encoders / decoders as record functions | round trip, with the fields that do not survive stated exactly |
| C44 | DeformingGeometryConstructor as a state machine | induction over all sequences of calls |
| C45, C52 | cell_index / global numbering | case analysis, injectivity |
| C46, C47 | brep volume, fan triangulation, cell triangulation | trilinear determinants, telescoping |
| C48–C50 | MAC divergence, boundary masks, grid volume matrices | exact stencils and counterexamples |
| C51, C74 | 2D bake under OpenMP, add_edge under the mutex | small-step semantics, confluence for every schedule |
| C53–C55 | exploded mesh, planar curve io, region volumes | index arithmetic, parser state machine |
| C66 | boundary operator of a cut-cell mesh | rows of the triplet list |
| C73 | triangle crossings with grid lines | exact set of points, as C13 |
| C75 | mask and vertex queries | counting over the axes |
| C76–C79 | 2D faces: loops of the planar cut graph, selection, ownership, incidence, duplicated edges | convexity of a cell against the turn-left walk; induction along the loop |
| C80 | condensation with rounded (arbitrary) groups | generic absorption invariant |
| C84 | the 2D pipeline as one model: `from_vertex`, `CutData::bake` (any schedule), active cells, grid edges, the cut graph, loops, selection, incidence. The nesting of loops into faces (mtao `tie_nonsimple_cells`) is a parameter subject to `Grouped` | composition of C05, C13–C20, C35, C51, C67, C74, C76–C79; the geometric step: pieces do not cross, every active cell is framed, Green's formula on the cell |
| C81–C83 | lines and grid queries over ℝ/ℚ; vertex and face numbering of meshes; cached triangulations | direct computation, induction over lists |
| C85 | `cell_faces`, `regions`, `face_regions`, `orig_face_regions`, `boundary_faces` over lists of cells and sorted maps | fold invariants on sorted sets |
| C86 | `region_centroids` transcribed; solids as lists of tetrahedra whose boundary triangles cancel | divergence-theorem sums over tetrahedra; refutations by exact values |
| C87 | vertex averages of faces and cells; `active_cells` | convexity of averages; floor arithmetic |
| C88 | vertex arrays as lists indexed by the grid indexer | index arithmetic |
| C89 | `centroids` in 2D; polygon functions of the library as parameters with contract `PolygonLib` | Green's formula: sums over triangles whose common edges cancel |
| C90 | `edge_lengths`, `dual_edge_lengths`, Hodge stars in 2D | telescoping sums over subdivisions |
| C91 | `surface_adjacency` with its three loops (fuel bounded by the number of edges), surface operators as sparse matrices | loop invariant and termination measure; finite sums |
| C92 | `grid_boundary_faces` in 2D and 3D on masks, exterior pairs and adaptive faces | set membership of folds; C27/C29 for the exterior part |
| C93 | `face_barycentric_volume_matrix`, `BarycentricTriangleFace::volume`, `face_volumes` | vector area of the affine image of a polygon |
| C94 | `dual_edge_lengths` in 3D over ℝ (norms) | last-write analysis of the loops; exact norms |
| C95–C97 | planes, boundary edges and exterior neighbours of the 3D generator (Gen3/Flags, BoundaryEdges, External) | invariants of the fold over cut cells; C96 assumes of `StaggeredGrid` vertex indices only that they are injective and grow along axes (`Steps`) |
| C98 | face numbers of the axis tasks (Gen3/FaceIds), every read and write of `face_size` is a step | invariant over all interleavings; the half-edge mesh library (`cells_multi_component_map`, writing through `cell_indices()`) is a parameter |
| C99 | faces of one plane (Gen3/PlaneFaces); half-edge cells, loops and signed areas are a parameter | C41 + C95 + C96 + C97 |
| C100 | `CutCellGenerator<3>::generate` (Gen3/Assemble) | `mapM` specification, C11/C12 for grid cells |
| C101 | `bake_cells` + collapser + `generate` + `boundary` composed (Gen3/Pipe, demos in PipeDemo) | counts of listings from C38/C71 pushed through removal, signs and renumbering to C66 |
| C102 | `generate_edges`, `edges`, `edge_slice`, `axial_edges`, `CutEdge` constructors (Cross/EdgesOut) | set and map folds; membership by induction; normals by algebra; defect as a theorem over all meshes |
| C103 | `cut_vertices`, `barycentric_map` (Interp/BaryMap) | rows of triplet lists as sums over crossings; with C17 (crossings) and C72 (coordinates) |
| C104 | `add_edges` (Life/AddEdges) | invariant of the two maps along the fold; pigeonhole for the uninitialised columns |
| C105 | `grid_cells_fully_utilized` (Tools/Validation) | counting identities over the sorted map |
| C106 | `volume_check`, `brep_region_volumes` (Tools/Validation) | induction over the loop with its two state variables |
| C107 | `triangulated_cell`, `triangulated_with_additional_vertices`, `get_mesh` over the cells of the collapser (Cell/Watertight); triangulated face with holes covered once (Mesh/Holes) | chains of directed edges as integer counts; the signed border of the unfolded faces vanishes (C38) |
| C108 | `vptr_faces` with `gvertices`, `nobdry_edges`, `boundary_vptr_edge`, the `FaceCollapser` run on barycentric coordinates (Tri/Faces; Tri/Arr*, Tri/Face*) | line arrangement in the triangle: each generic point is left of exactly one orbit of `next`; the marked outer loop is dropped; areas add up by antisymmetry |
| C109 | `CutData<3>::bake` whole (Surf/Model): edges, triangles, unification, cut edges, cut faces, under all schedules | C51 determinism + C17 indices + C108 per triangle; the border of the polygons of a triangle is the cut paths of its edges (Tri/FaceSides), so net side counts add up over the mesh |
| C110 | `CellCollapser` + normals + volumes (Cell/*): face sides, grid cells, walls (Fill/*) | at an edge the directions into the cell form a cone with extreme rays in walls (Rays); the cyclic order cannot jump over a face on an extreme ray (Cone), so one turn keeps the side in the cell; induction over turns; volumes: interior faces cancel, walls give the box |
| C111 | models of C38, C71, C100, C101, C105, C110 joined (Fill/Utilize) | kept cells and mesh cells correspond by position; stored grid cell from C100 + C110; volumes from C110; verdict from C105 |
| C112 | planar graph of a grid plane (C76), faces of compute_faces_axis (C99), walls (C110) (Fill/Frame2, Walls, PlaneWalls) | telescoping sum along each side (next vertex is a bijection), antisymmetric sum over all half-edges in the square, half-edges of wall faces = half-edges with the wall on the left; Fill/HemLoops derives the half-edge mesh from the face walk (C35, C76), up to grouping of its loops |
| C113 | the pairing validation of the tool, reading cells per region (Tools/Paired, PairedGen) | folds turned into counts, intersection of cell sets characterised, acceptance condition as an iff; generated meshes through C101 and C39 |
| C114 | check_cell_containment, check_face_utilization, area_normal (Gen3/Checks) | C11 for possible cells; kept cells of C101; polynomial identities in the coordinates |
| C115 | bake_vertices, generate_vertices, vertex accessors of generator and mesh (Cross/MeshVerts) | dense numbering of the fused crossings (C17–C19, C102), folds over the crossing list |
| C116 | `faces_fully_utilized` with `face_barycentric_volume_matrix`, `face_grid_volume_matrix`, `grid_face_projection` (Tools/FacesUtilized) | acceptance as an iff on the column sums; the columns from C27 (exterior grid) and the area vectors of C46/C112 (cut faces); refutations for boundary, wide and against-axis faces; demo meshes in Tools/FacesUtilizedDemo |
| C117 | planar slicer: transformation, grid, vertex array, selection of cut faces, result vertices (Tools/Slicer); the basis of the direction is a parameter; closing faces and `compactify` not modelled | C109 polygons; a polygon whose vertices are in a half-space has its inside there (Cramer's identity) |
| C118 | `exterior_grid_valences`, `exterior_cell_valence_counts` (Tools/ExtValences) | counts of a fold over records and faces; faces turned into neighbours by C27; acceptance as uniqueness of the neighbour on each side by a cardinality argument |
| C119 | `boundary_triplets` of the exterior grid on a mesh read from a file (Adaptive/Reload) | ownership of the renumbered cells (C26) at the unit cell whose linear index is the id; refutation on a 4×1×1 grid |
| C120 | `fix_axis_aligned_indefiniteness`, `grid_edgeratio` (Ops/GridSolve) | state of the loop after k inner vectors, then the dense entries; energy and solutions by finite sums; writes of the two loops are unique and cover (numbering of C48); refutation for non-symmetric matrices |
| C121 | closing faces of the planar slicer, `stl_edges` (Tools/SlicerCaps, Tools/SlicerDemo) | set of sorted pairs = ends of cut edges = sides of cut faces (C109); count of a half-edge in the capped cells; border of the result by nets; refutations for holes and for orientation. Assumed of the library: the cells of the half-edge mesh contain each half-edge once, triangulations have the border of their loops, `signed_areas` are areas |
| C122 | grouping of planar loops by grid cell (Gen3/LoopGroups) | intersection of the cells of the vertices, folded over the half-edges; convexity of closed cells; `tie_nonsimple_cells` itself is a library call |
| C123 | winding number check (Tools/Pcwn) | the fold with constant argument; C107 for the cells of the collapser; libigl's test is a parameter |
| C124 | 2D mesh writer (Tools/MeshWriter2) | C22's facets and C21's numbering turned into vertex pairs; labels by the sign of the cross product; C54's reader on the file |
| C125 | dual lengths and corner numbers of the adaptive grid (Adaptive/DualEdges) | C27 gives the separated pair of a face; dyadic blocks give the relative position of the cells; parity shows the centres of unequal cells never agree |
| C126 | areas of 2D cells (Pipe2/Areas2) | C84 tiling summed over the owner cells; shoelace under scaling; pairing of half-edges gives the area of the outer loops, hence an admissible nesting |
| C127 | models of C111 (volumes per grid cell), C25 (tiling), C28 (adaptive volumes), renumbering (Fill/TotalVolume) | sum of cut volumes grouped by grid cell (C111), sum of cubes = number of uncut cells; comparison of counts; demonstration on a grid of two cells, one cut in two |
| C128 | `cell(int)` and `faces()` of a 2D mesh on top of Pipe2 (Mesh/Draw2) | exterior cells have their cell on the right of each half-edge (C76), cut faces on the left; the partition of half-edges (C35); areas from C126 and |x| = x + 2 max(0,-x). `earclipping` is library code: assumed to triangulate the polygon it is given |
| C129 | facet masks of `DomainBoundary` on top of the C29 model: writes by index into a vector with bounds | exact characterisation of the written entries by induction over the written indices; failure on every exterior grid from C22 |
| C130 | heap of generators, live objects (pointer, dirty flag), construction, moves, calls, destruction | simulation by value semantics with the ownership invariant (unique, live); leaks characterised by induction over the history |
| C131 | `CutmeshGenerator_Imgui` as a sequence of calls of the C44 model plus its parameters; `from_grid`, `from_bbox`; library boxes and grids are parameters | invariants over call histories; exact emission of the protocol and of the defective call |
| C132 | `write_obj` of tools/cutmesh_to_obj.cpp: `boundary(true)` of C66 times the vector of used cells, the choice of faces, their triangles; vertex compaction and the printed text are not modelled | case analysis on the sides of a face from the row theorem C66; C64 for the exterior triangles |
| C133 | `make_generator` of the command line tool as a function of the options and the mesh; `from_bbox`, `stoi` and the conversion to grid coordinates are parameters; reading the file and removing self-intersections are not modelled | affine behaviour of the bounding box (its extremes are attained) |
| C134– | later additions: see properties.jsonl; each names the modelled functions in its anchors | |

## Trusted base

* Lean 4.33.0's kernel, and the Mathlib modules imported.
* Axioms: each property theorem depends on a subset of `propext`, `Classical.choice`, `Quot.sound` (`#print axioms` on
  all of them; three need none, a few only `propext` or `propext`, `Quot.sound`). No axiom is declared, no `native_decide`
  or `bv_decide` is used.
* The faithfulness of the transcription: the code is not executed here.
* `double` is ℚ with exact operations: rounding, NaN and infinity are outside the model, except where a theorem is stated
  for arbitrary inputs to a stage (C09 thresholds, C14_position_tolerance, C80). `int`, `size_t` are unbounded.
* Code outside the repository (mtao core, Eigen, protobuf, libigl, tbb/OpenMP) is represented by its documented behaviour:
  - grids are traversed in some order that visits every coordinate once (`GridOrder`, arbitrary);
  - the disjoint-set picks an arbitrary representative of each class (`DsuRoots`);
  - cyclic orders around vertices and edges are arbitrary permutations where only combinatorics is claimed, and sorted by
    the comparator in the code where geometry is claimed;
  - the order of pointers (`std::set<const Vertex*>`) is an arbitrary strict total order;
  - `barycentric_simplicial` is a parameter with the defining equation of barycentric coordinates;
  - protobuf maps may be iterated in any order;
  - `staggered_index` is injective on its facets;
  - `curve_volume` and `curve_centroid` of a polygon are its signed area and, if that is not zero, its centre of mass
    (contract `PolygonLib`); `form_volumes<1>()[a]` is the grid spacing along `a`; `volumes(V, F)` are the areas of the triangles;
  - the half-edge mesh of the planar graph in `compute_planar_hem` is a partition of the half-edges into loops grouped into
    faces (parameter `faces` of `Gen2`);
  - a `#pragma omp parallel for` runs its iterations as processes with arbitrary interleaving, `std::mutex` is a lock.

## What is not modelled

* Floating-point error, overflow, memory allocation, logging, timing (`mtao::logging`), the drawing of widgets in
  `construct_imgui` (its effect on the generator is modelled, C131), OpenGL examples.
* `remesh_self_intersections`, `preprocess_mesh` (thin wrappers around libigl); of `planar_slicer` what C117 and C121 name.
* The internals of mtao's HalfEdgeMesh, `earclipping`, `triangle` and constrained Delaunay triangulation
  (`CutFace<3>::triangulate` beyond the fan and the reindexing).
* `construct.cpp` beyond the sequence of generator calls and the ownership of the generator modelled in `Life`.
* The numerical values of `winding_number` and solid angles (`is_inside` in 3D, `CutCell::solid_angle`); point location
  theorems take `is_inside` as a parameter.

## Mutation tests

`seeded/LOG.jsonl` holds one line per seeded bug: the definition, the textual edit, the claim it breaks, the theorems that
no longer compile and the property theorems that depend on them, and the theorems tightened when a bug survived. Survivors
marked "equivalent" change no reachable behaviour.
