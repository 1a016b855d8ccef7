{
 "claims": [
  {
   "property": "C01",
   "status": "proved",
   "theorems": [
    "Mandoline.C01_subsumes_iff_inclusion",
    "Mandoline.C01_strictSubsumes_iff",
    "Mandoline.C01_partialOrdering"
   ],
   "note": ""
  },
  {
   "property": "C02",
   "status": "proved",
   "theorems": [
    "Mandoline.C02_container_order",
    "Mandoline.C02_and_is_meet",
    "Mandoline.C02_and_semilattice",
    "Mandoline.C02_sub_spec"
   ],
   "note": ""
  },
  {
   "property": "C03",
   "status": "proved",
   "theorems": [
    "Mandoline.C03_or_eq_and",
    "Mandoline.C03_union_failure_set",
    "Mandoline.C03_union_refuted"
   ],
   "note": "The intended property fails at: C03_union_refuted. The statement in properties.jsonl describes what the code guarantees and where it fails; both are proved."
  },
  {
   "property": "C04",
   "status": "proved",
   "theorems": [
    "Mandoline.C04_possibleCells_iff",
    "Mandoline.C04_possibleCells_card"
   ],
   "note": ""
  },
  {
   "property": "C05",
   "status": "proved",
   "theorems": [
    "Mandoline.C05_fromVertex",
    "Mandoline.C05_repair",
    "Mandoline.C05_eq_iff_position"
   ],
   "note": ""
  },
  {
   "property": "C06",
   "status": "proved",
   "theorems": [
    "Mandoline.C06_lt_iff",
    "Mandoline.C06_strict_total_order",
    "Mandoline.C06_lt_one_dim"
   ],
   "note": ""
  },
  {
   "property": "C07",
   "status": "proved",
   "theorems": [
    "Mandoline.C07_add",
    "Mandoline.C07_sub",
    "Mandoline.C07_smul",
    "Mandoline.C07_lerp"
   ],
   "note": ""
  },
  {
   "property": "C08",
   "status": "proved",
   "theorems": [
    "Mandoline.C08_flags_sound",
    "Mandoline.C08_grid_vertex_integral",
    "Mandoline.C08_lerp_keeps_plane"
   ],
   "note": ""
  },
  {
   "property": "C09",
   "status": "proved",
   "theorems": [
    "Mandoline.C09_threshold_snap",
    "Mandoline.C09_threshold_complete",
    "Mandoline.C09_threshold_idempotent"
   ],
   "note": ""
  },
  {
   "property": "C10",
   "status": "proved",
   "theorems": [
    "Mandoline.C10_approx_characterised",
    "Mandoline.C10_approx_refuted"
   ],
   "note": "The intended property fails at: C10_approx_refuted. The statement in properties.jsonl describes what the code guarantees and where it fails; both are proved."
  },
  {
   "property": "C11",
   "status": "proved",
   "theorems": [
    "Mandoline.C11_possibleCells_iff",
    "Mandoline.C11_possibleCells_nil",
    "Mandoline.C11_possibleCells_order",
    "Mandoline.C11_possibleCells_loops",
    "Mandoline.C11_possibleCellsCell",
    "Mandoline.C11_elementPossibleCells"
   ],
   "note": ""
  },
  {
   "property": "C12",
   "status": "proved",
   "theorems": [
    "Mandoline.C12_container_mask",
    "Mandoline.C12_update_mask",
    "Mandoline.C12_face_mask_loops"
   ],
   "note": ""
  },
  {
   "property": "C13",
   "status": "proved",
   "theorems": [
    "Mandoline.C13_crossings_exact",
    "Mandoline.C13_crossings_represented"
   ],
   "note": ""
  },
  {
   "property": "C14",
   "status": "proved",
   "theorems": [
    "Mandoline.C14_position_exact",
    "Mandoline.C14_position_tolerance",
    "Mandoline.C14_getCoord",
    "Mandoline.C14_getCoord_reported",
    "Mandoline.C14_flags_exact",
    "Mandoline.C14_tolerance",
    "Mandoline.C14_position_within"
   ],
   "note": ""
  },
  {
   "property": "C15",
   "status": "proved",
   "theorems": [
    "Mandoline.C15_path"
   ],
   "note": ""
  },
  {
   "property": "C16",
   "status": "proved",
   "theorems": [
    "Mandoline.C16_subedge_in_cell"
   ],
   "note": ""
  },
  {
   "property": "C17",
   "status": "proved",
   "theorems": [
    "Mandoline.C17_fuse_indices",
    "Mandoline.C17_nofuse",
    "Mandoline.C17_new_vertices"
   ],
   "note": ""
  },
  {
   "property": "C18",
   "status": "proved",
   "theorems": [
    "Mandoline.C18_same_edge",
    "Mandoline.C18_not_strict_weak",
    "Mandoline.C18_not_transitive"
   ],
   "note": "The comparator is not a strict weak order: C18_not_strict_weak, C18_not_transitive."
  },
  {
   "property": "C19",
   "status": "proved",
   "theorems": [
    "Mandoline.C19_grid_edge_path",
    "Mandoline.C19_handled_edges",
    "Mandoline.C19_order_independent",
    "Mandoline.C19_all_pieces",
    "Mandoline.C19_hypotheses_met"
   ],
   "note": ""
  },
  {
   "property": "C20",
   "status": "proved",
   "theorems": [
    "Mandoline.C20_active_iff",
    "Mandoline.C20_mask_spec"
   ],
   "note": ""
  },
  {
   "property": "C21",
   "status": "proved",
   "theorems": [
    "Mandoline.C21_index_minus_one",
    "Mandoline.C21_bijection"
   ],
   "note": ""
  },
  {
   "property": "C22",
   "status": "proved",
   "theorems": [
    "Mandoline.C22_facets",
    "Mandoline.C22_facets_exact",
    "Mandoline.C22_high_facets_refuted"
   ],
   "note": "The intended property fails at: C22_high_facets_refuted. The statement in properties.jsonl describes what the code guarantees and where it fails; both are proved."
  },
  {
   "property": "C23",
   "status": "proved",
   "theorems": [
    "Mandoline.C23_rows_interior",
    "Mandoline.C23_rows_domain",
    "Mandoline.C23_kills_constants",
    "Mandoline.C23_exterior_kills_constants"
   ],
   "note": ""
  },
  {
   "property": "C24",
   "status": "proved",
   "theorems": [
    "Mandoline.C24_full_grid"
   ],
   "note": ""
  },
  {
   "property": "C25",
   "status": "proved",
   "theorems": [
    "Mandoline.C25_tiling",
    "Mandoline.C25_default_level",
    "Mandoline.C25_empty_geometry_refuted",
    "Mandoline.C25_padding_refuted"
   ],
   "note": "The intended property fails at: C25_empty_geometry_refuted, C25_padding_refuted. The statement in properties.jsonl describes what the code guarantees and where it fails; both are proved."
  },
  {
   "property": "C26",
   "status": "proved",
   "theorems": [
    "Mandoline.C26_ownership",
    "Mandoline.C26_get_cell_index",
    "Mandoline.C26_lookup_agrees",
    "Mandoline.C26_outside_refuted",
    "Mandoline.C26_factory_disjoint"
   ],
   "note": "The intended property fails at: C26_outside_refuted. The statement in properties.jsonl describes what the code guarantees and where it fails; both are proved."
  },
  {
   "property": "C27",
   "status": "proved",
   "theorems": [
    "Mandoline.C27_face_geometry",
    "Mandoline.C27_factory",
    "Mandoline.C27_faces_exact"
   ],
   "note": ""
  },
  {
   "property": "C28",
   "status": "proved",
   "theorems": [
    "Mandoline.C28_face_projection_sum",
    "Mandoline.C28_face_projection_facets",
    "Mandoline.C28_face_projection_refuted",
    "Mandoline.C28_face_projection_domain",
    "Mandoline.C28_face_area",
    "Mandoline.C28_total_volume",
    "Mandoline.C28_cell_volumes",
    "Mandoline.C28_cell_volumes_noncontiguous_refuted",
    "Mandoline.C28_volumes_sum",
    "Mandoline.C28_cell_projection_column_sum",
    "Mandoline.C28_cell_projection_row"
   ],
   "note": "The intended property fails at: C28_face_projection_refuted, C28_cell_volumes_noncontiguous_refuted. The statement in properties.jsonl describes what the code guarantees and where it fails; both are proved."
  },
  {
   "property": "C29",
   "status": "proved",
   "theorems": [
    "Mandoline.C29_throws",
    "Mandoline.C29_exterior_throws",
    "Mandoline.C29_boundary_facets_value",
    "Mandoline.C29_boundary_facets_refuted",
    "Mandoline.C29_grid_boundary_faces"
   ],
   "note": "The intended property fails at: C29_boundary_facets_refuted. The statement in properties.jsonl describes what the code guarantees and where it fails; both are proved."
  },
  {
   "property": "C30",
   "status": "proved",
   "theorems": [
    "Mandoline.C30_symmetric_psd",
    "Mandoline.C30_kills_constants",
    "Mandoline.C30_total_divergence",
    "Mandoline.C30_hodge_weights",
    "Mandoline.C30_hodge_energy",
    "Mandoline.C30_mesh"
   ],
   "note": ""
  },
  {
   "property": "C31",
   "status": "proved",
   "theorems": [
    "Mandoline.C31_dimensions",
    "Mandoline.C31_grid_refuted"
   ],
   "note": "The intended property fails at: C31_grid_refuted. The statement in properties.jsonl describes what the code guarantees and where it fails; both are proved. Defect property: operators only defined for square boundary matrices."
  },
  {
   "property": "C32",
   "status": "proved",
   "theorems": [
    "Mandoline.C32_grid_rows_identity",
    "Mandoline.C32_partition_of_unity",
    "Mandoline.C32_reproduces_affine",
    "Mandoline.C32_reproduces_world",
    "Mandoline.C32_columns_valid",
    "Mandoline.C32_high_side_column_refuted"
   ],
   "note": "The intended property fails at: C32_high_side_column_refuted. The statement in properties.jsonl describes what the code guarantees and where it fails; both are proved."
  },
  {
   "property": "C33",
   "status": "proved",
   "theorems": [
    "Mandoline.C33_rows_normalised",
    "Mandoline.C33_row_sums",
    "Mandoline.C33_interpolates",
    "Mandoline.C33_interpolates_edges",
    "Mandoline.C33_interpolates_triangles",
    "Mandoline.C33_self_contact_refuted"
   ],
   "note": "The intended property fails at: C33_self_contact_refuted. The statement in properties.jsonl describes what the code guarantees and where it fails; both are proved."
  },
  {
   "property": "C34",
   "status": "proved",
   "theorems": [
    "Mandoline.C34_edge_bary",
    "Mandoline.C34_bary_index",
    "Mandoline.C34_degenerate_refuted",
    "Mandoline.C34_edge_crossing",
    "Mandoline.C34_clamp",
    "Mandoline.C34_chord_bary",
    "Mandoline.C34_mean_bary"
   ],
   "note": "The intended property fails at: C34_degenerate_refuted. The statement in properties.jsonl describes what the code guarantees and where it fails; both are proved."
  },
  {
   "property": "C35",
   "status": "proved",
   "theorems": [
    "Mandoline.FaceCollapser.C35_loops_partition_edges",
    "Mandoline.FaceCollapser.C35_next_bijective",
    "Mandoline.FaceCollapser.C35_face_iff_same_loop"
   ],
   "note": ""
  },
  {
   "property": "C36",
   "status": "proved",
   "theorems": [
    "Mandoline.FaceCollapser.C36_same_face_iff_joined",
    "Mandoline.FaceCollapser.C36_removed",
    "Mandoline.FaceCollapser.C36_contiguous"
   ],
   "note": ""
  },
  {
   "property": "C37",
   "status": "proved",
   "theorems": [
    "Mandoline.FaceCollapser.C37_single_edge",
    "Mandoline.FaceCollapser.C37_ignores_vertices",
    "Mandoline.FaceCollapser.C37_marks_positions",
    "Mandoline.FaceCollapser.C37_refuted"
   ],
   "note": "The intended property fails at: C37_refuted. The statement in properties.jsonl describes what the code guarantees and where it fails; both are proved. Defect property."
  },
  {
   "property": "C38",
   "status": "proved",
   "theorems": [
    "Mandoline.CellCollapser.C38_same_cell_iff_linked",
    "Mandoline.CellCollapser.C38_contiguous",
    "Mandoline.CellCollapser.C38_boundary",
    "Mandoline.CellCollapser.C38_side_in_one_cell",
    "Mandoline.CellCollapser.C38_opposite_signs",
    "Mandoline.CellCollapser.C38_folded_faces",
    "Mandoline.CellCollapser.C38_halffaces",
    "Mandoline.CellCollapser.C38_cells_closed"
   ],
   "note": ""
  },
  {
   "property": "C39",
   "status": "proved",
   "theorems": [
    "Mandoline.Region.Mesh3.C39_3d_regions",
    "Mandoline.Region.Mesh3.C39_3d_adaptive",
    "Mandoline.Region.Mesh3.C39_3d_outside",
    "Mandoline.Region.Mesh3.C39_3d_no_outside",
    "Mandoline.Region.Mesh3.C39_3d_enclosed_adaptive_refuted",
    "Mandoline.Region.Mesh3.C39_3d_min_face",
    "Mandoline.Region.Mesh2.C39_2d_regions",
    "Mandoline.Region.Mesh2.C39_2d_contiguous",
    "Mandoline.Region.Mesh2.C39_2d_outside",
    "Mandoline.Region.Mesh2.C39_2d_no_exterior_boundary",
    "Mandoline.Region.Mesh2.C39_2d_outside_refuted"
   ],
   "note": "The intended property fails at: C39_3d_enclosed_adaptive_refuted, C39_2d_outside_refuted. The statement in properties.jsonl describes what the code guarantees and where it fails; both are proved."
  },
  {
   "property": "C40",
   "status": "proved",
   "theorems": [
    "Mandoline.C40_plane_axes",
    "Mandoline.C40_down_up",
    "Mandoline.C40_up_down",
    "Mandoline.C40_upgrade_values",
    "Mandoline.C40_vertex_up",
    "Mandoline.C40_vertex_down",
    "Mandoline.C40_index_roundtrip"
   ],
   "note": ""
  },
  {
   "property": "C41",
   "status": "proved",
   "theorems": [
    "Mandoline.C41_smallest_is_minimum",
    "Mandoline.C41_rotation_invariant",
    "Mandoline.C41_reverse_variant",
    "Mandoline.C41_simple_loop",
    "Mandoline.C41_positive_face_suppressed",
    "Mandoline.C41_suppressed_only_by_positive",
    "Mandoline.C41_suppressed_shares_edge",
    "Mandoline.C41_negative_face_duplicated_refuted"
   ],
   "note": "The intended property fails at: C41_negative_face_duplicated_refuted. The statement in properties.jsonl describes what the code guarantees and where it fails; both are proved."
  },
  {
   "property": "C42",
   "status": "proved",
   "theorems": [
    "Mandoline.Proto.C42_cube",
    "Mandoline.Proto.C42_square_swapped",
    "Mandoline.Proto.C42_square_iff",
    "Mandoline.Proto.C42_face_iff",
    "Mandoline.Proto.C42_refuted"
   ],
   "note": "The intended property fails at: C42_refuted. The statement in properties.jsonl describes what the code guarantees and where it fails; both are proved."
  },
  {
   "property": "C43",
   "status": "proved",
   "theorems": [
    "Mandoline.Proto.C43_vertex",
    "Mandoline.Proto.C43_face",
    "Mandoline.Proto.C43_cell",
    "Mandoline.Proto.C43_mesh",
    "Mandoline.Proto.C43_mesh_exact",
    "Mandoline.Proto.C43_idempotent",
    "Mandoline.Proto.C43_edges_lost_refuted",
    "Mandoline.Proto.C43_adaptive_faces_refuted"
   ],
   "note": "The intended property fails at: C43_edges_lost_refuted, C43_adaptive_faces_refuted. The statement in properties.jsonl describes what the code guarantees and where it fails; both are proved."
  },
  {
   "property": "C44",
   "status": "proved",
   "theorems": [
    "Mandoline.Life.C44_bake_reflects_latest",
    "Mandoline.Life.C44_bake_idempotent",
    "Mandoline.Life.C44_deformation_loop",
    "Mandoline.Life.C44_topology_alone_refuted",
    "Mandoline.Life.C44_grid_alone_refuted",
    "Mandoline.Life.C44_ctor_threshold_refuted",
    "Mandoline.Life.C44_fewer_vertices_refuted"
   ],
   "note": "The intended property fails at: C44_topology_alone_refuted, C44_grid_alone_refuted, C44_ctor_threshold_refuted, C44_fewer_vertices_refuted. The statement in properties.jsonl describes what the code guarantees and where it fails; both are proved."
  },
  {
   "property": "C45",
   "status": "proved",
   "theorems": [
    "Mandoline.Locate.C45_outside",
    "Mandoline.Locate.C45_exterior",
    "Mandoline.Locate.C45_cut",
    "Mandoline.Locate.C45_cut_unique",
    "Mandoline.Locate.C45_range",
    "Mandoline.Locate.C45_exterior_loop",
    "Mandoline.Locate.C45_in_cell_refuted"
   ],
   "note": "The intended property fails at: C45_in_cell_refuted. The statement in properties.jsonl describes what the code guarantees and where it fails; both are proved."
  },
  {
   "property": "C46",
   "status": "proved",
   "theorems": [
    "Mandoline.C46_origin_independent",
    "Mandoline.C46_baked_origin_independent",
    "Mandoline.C46_orientation",
    "Mandoline.C46_union",
    "Mandoline.C46_start_independent",
    "Mandoline.C46_start_dependent_refuted",
    "Mandoline.C46_tetrahedron",
    "Mandoline.C46_box"
   ],
   "note": "The intended property fails at: C46_start_dependent_refuted. The statement in properties.jsonl describes what the code guarantees and where it fails; both are proved."
  },
  {
   "property": "C47",
   "status": "proved",
   "theorems": [
    "Mandoline.C47_count",
    "Mandoline.C47_vertices",
    "Mandoline.C47_area",
    "Mandoline.C47_volume",
    "Mandoline.C47_cell_triangles",
    "Mandoline.C47_cell_fans"
   ],
   "note": ""
  },
  {
   "property": "C48",
   "status": "proved",
   "theorems": [
    "Mandoline.C48_divergence",
    "Mandoline.C48_divergence_dirichlet_square",
    "Mandoline.C48_divergence_dirichlet",
    "Mandoline.C48_face_numbering",
    "Mandoline.C48_wide_grid_refuted",
    "Mandoline.C48_tall_grid_refuted"
   ],
   "note": "The intended property fails at: C48_wide_grid_refuted, C48_tall_grid_refuted. The statement in properties.jsonl describes what the code guarantees and where it fails; both are proved."
  },
  {
   "property": "C49",
   "status": "proved",
   "theorems": [
    "Mandoline.C49_mesh_mask",
    "Mandoline.C49_exterior_part",
    "Mandoline.C49_cut_part",
    "Mandoline.C49_high_side_refuted",
    "Mandoline.C49_corrected"
   ],
   "note": "The intended property fails at: C49_high_side_refuted. The statement in properties.jsonl describes what the code guarantees and where it fails; both are proved."
  },
  {
   "property": "C50",
   "status": "proved",
   "theorems": [
    "Mandoline.GridVolume.C50_edge_columns",
    "Mandoline.GridVolume.C50_edge_unit_spacing",
    "Mandoline.GridVolume.C50_edge_spacing_refuted",
    "Mandoline.GridVolume.C50_mesh_edge_counted_twice_refuted",
    "Mandoline.GridVolume.C50_face_columns",
    "Mandoline.GridVolume.C50_face_partition",
    "Mandoline.GridVolume.C50_face3_corner",
    "Mandoline.GridVolume.C50_face3_columns",
    "Mandoline.GridVolume.C50_face3_partition",
    "Mandoline.GridVolume.C50_grid_face_area"
   ],
   "note": "The intended property fails at: C50_edge_spacing_refuted, C50_mesh_edge_counted_twice_refuted. The statement in properties.jsonl describes what the code guarantees and where it fails; both are proved."
  },
  {
   "property": "C51",
   "status": "proved",
   "theorems": [
    "Mandoline.Sched.C51_schedule_independent",
    "Mandoline.Sched.C51_no_deadlock",
    "Mandoline.Sched.C51_terminates",
    "Mandoline.Sched.C51_lock_needed",
    "Mandoline.Sched.EdgeInput.C51_bake2"
   ],
   "note": ""
  },
  {
   "property": "C52",
   "status": "proved",
   "theorems": [
    "Mandoline.Number3.C52_each_number_one_cell",
    "Mandoline.Number3.C52_exterior_unbounded_refuted",
    "Mandoline.Number3.C52_faces",
    "Mandoline.Number3.C52_cells_in_grid_cell",
    "Mandoline.Number3.C52_locate_exterior",
    "Mandoline.Number3.C52_locate_cut",
    "Mandoline.Number3.C52_locate_range",
    "Mandoline.Number3.C52_volumes",
    "Mandoline.Number3.C52_regions"
   ],
   "note": "The intended property fails at: C52_exterior_unbounded_refuted. The statement in properties.jsonl describes what the code guarantees and where it fails; both are proved."
  },
  {
   "property": "C53",
   "status": "proved",
   "theorems": [
    "Mandoline.Explode.C53_faces_refer_to_own_block",
    "Mandoline.Explode.C53_counts",
    "Mandoline.Explode.C53_offsets",
    "Mandoline.Explode.C53_rigid",
    "Mandoline.Explode.C53_no_overlap",
    "Mandoline.Explode.C53_region_overlap_refuted",
    "Mandoline.Explode.C53_colors"
   ],
   "note": "The intended property fails at: C53_region_overlap_refuted. The statement in properties.jsonl describes what the code guarantees and where it fails; both are proved."
  },
  {
   "property": "C54",
   "status": "proved",
   "theorems": [
    "Mandoline.PlCurve.C54_read_write",
    "Mandoline.PlCurve.C54_roundtrip_closed",
    "Mandoline.PlCurve.C54_open_curve_refuted",
    "Mandoline.PlCurve.C54_many_edges_refuted"
   ],
   "note": "The intended property fails at: C54_open_curve_refuted, C54_many_edges_refuted. The statement in properties.jsonl describes what the code guarantees and where it fails; both are proved."
  },
  {
   "property": "C55",
   "status": "proved",
   "theorems": [
    "Mandoline.RegVol.C55_indexing",
    "Mandoline.RegVol.C55_accumulated",
    "Mandoline.RegVol.C55_reported",
    "Mandoline.RegVol.C55_correct_if_in_order",
    "Mandoline.RegVol.C55_swapped_refuted",
    "Mandoline.RegVol.C55_gap_refuted"
   ],
   "note": "The intended property fails at: C55_swapped_refuted, C55_gap_refuted. The statement in properties.jsonl describes what the code guarantees and where it fails; both are proved."
  },
  {
   "property": "C56",
   "status": "proved",
   "theorems": [
    "Mandoline.C56_bake_without_grid_all_integral",
    "Mandoline.C56_bake_without_grid_refuted"
   ],
   "note": "The intended property fails at: C56_bake_without_grid_refuted. The statement in properties.jsonl describes what the code guarantees and where it fails; both are proved. Defect property."
  },
  {
   "property": "C57",
   "status": "proved",
   "theorems": [
    "Mandoline.C57_met_cell_active"
   ],
   "note": ""
  },
  {
   "property": "C58",
   "status": "proved",
   "theorems": [
    "Mandoline.C58_range_test_accepts_all",
    "Mandoline.C58_crossings_inside_grid_refuted"
   ],
   "note": "The intended property fails at: C58_crossings_inside_grid_refuted. The statement in properties.jsonl describes what the code guarantees and where it fails; both are proved. Defect property."
  },
  {
   "property": "C59",
   "status": "proved",
   "theorems": [
    "Mandoline.C59_isCut_inverted"
   ],
   "note": "Defect property: is_cut returns the negation."
  },
  {
   "property": "C60",
   "status": "proved",
   "theorems": [
    "Mandoline.C60_boundary_faces_agree"
   ],
   "note": ""
  },
  {
   "property": "C61",
   "status": "proved",
   "theorems": [
    "Mandoline.C61_triplet_columns",
    "Mandoline.C61_boundary_rows",
    "Mandoline.C61_factory"
   ],
   "note": ""
  },
  {
   "property": "C62",
   "status": "proved",
   "theorems": [
    "Mandoline.C62_valid_edge_after_renumber",
    "Mandoline.C62_boundary_face_mask_refuted",
    "Mandoline.C62_wrong_cells_refuted"
   ],
   "note": "The intended property fails at: C62_boundary_face_mask_refuted, C62_wrong_cells_refuted. The statement in properties.jsonl describes what the code guarantees and where it fails; both are proved."
  },
  {
   "property": "C63",
   "status": "proved",
   "theorems": [
    "Mandoline.C63_triangulated_cell",
    "Mandoline.C63_triangulated_vertices"
   ],
   "note": ""
  },
  {
   "property": "C64",
   "status": "proved",
   "theorems": [
    "Mandoline.C64_triangulated_face",
    "Mandoline.C64_invert_reverses"
   ],
   "note": ""
  },
  {
   "property": "C65",
   "status": "proved",
   "theorems": [
    "Mandoline.C65_boundary_centroids"
   ],
   "note": ""
  },
  {
   "property": "C66",
   "status": "proved",
   "theorems": [
    "Mandoline.C66_rows",
    "Mandoline.C66_row_entries",
    "Mandoline.C66_kills_constants",
    "Mandoline.C66_boundary2_kills_constants",
    "Mandoline.C66_boundary2_exterior_rows",
    "Mandoline.C66_external_sign"
   ],
   "note": ""
  },
  {
   "property": "C67",
   "status": "proved",
   "theorems": [
    "Mandoline.C67_strict_weak_order",
    "Mandoline.C67_sorted_is_ccw",
    "Mandoline.C67_loop_turns_left"
   ],
   "note": ""
  },
  {
   "property": "C68",
   "status": "proved",
   "theorems": [
    "Mandoline.FaceCollapser.C68_same_face_iff_linked",
    "Mandoline.FaceCollapser.C68_nested_loops_merged",
    "Mandoline.FaceCollapser.C68_unnested"
   ],
   "note": ""
  },
  {
   "property": "C69",
   "status": "proved",
   "theorems": [
    "Mandoline.CellCollapser.C69_walk_terminates",
    "Mandoline.CellCollapser.C69_flaps_removed",
    "Mandoline.CellCollapser.C69_foreign_flap_corrupts",
    "Mandoline.CellCollapser.C69_pinched_loop_refuted",
    "Mandoline.CellCollapser.C69_flap_edges"
   ],
   "note": "The intended property fails at: C69_pinched_loop_refuted. The statement in properties.jsonl describes what the code guarantees and where it fails; both are proved."
  },
  {
   "property": "C70",
   "status": "proved",
   "theorems": [
    "Mandoline.CellCollapser.C70_faces_in_order",
    "Mandoline.CellCollapser.C70_wedge_sides",
    "Mandoline.CellCollapser.C70_wedge_in_one_cell"
   ],
   "note": ""
  },
  {
   "property": "C71",
   "status": "proved",
   "theorems": [
    "Mandoline.CellCollapser.C71_listed_once",
    "Mandoline.CellCollapser.C71_inner_faces_keep_cells",
    "Mandoline.CellCollapser.C71_kept_cells",
    "Mandoline.CellCollapser.C71_removed_iff",
    "Mandoline.CellCollapser.C71_volumes_cancel",
    "Mandoline.CellCollapser.C71_inner_cell_lost_refuted"
   ],
   "note": "The intended property fails at: C71_inner_cell_lost_refuted. The statement in properties.jsonl describes what the code guarantees and where it fails; both are proved."
  },
  {
   "property": "C72",
   "status": "proved",
   "theorems": [
    "Mandoline.C72_edge_coord",
    "Mandoline.C72_shared_crossing_refuted",
    "Mandoline.C72_face_bary"
   ],
   "note": "The intended property fails at: C72_shared_crossing_refuted. The statement in properties.jsonl describes what the code guarantees and where it fails; both are proved."
  },
  {
   "property": "C73",
   "status": "proved",
   "theorems": [
    "Mandoline.TriInput.C73_crossings_exact",
    "Mandoline.TriInput.C73_address_independent"
   ],
   "note": ""
  },
  {
   "property": "C74",
   "status": "proved",
   "theorems": [
    "Mandoline.Sched.EdgeInput.C74_index_position",
    "Mandoline.Sched.EdgeInput.C74_pieces"
   ],
   "note": ""
  },
  {
   "property": "C75",
   "status": "proved",
   "theorems": [
    "Mandoline.C75_count",
    "Mandoline.C75_axis",
    "Mandoline.C75_array_clamp",
    "Mandoline.C75_vertex"
   ],
   "note": ""
  },
  {
   "property": "C76",
   "status": "proved",
   "theorems": [
    "Mandoline.Planar.C76_face_in_one_cell",
    "Mandoline.Planar.C76_loop_in_one_cell",
    "Mandoline.Planar.C76_left_cell"
   ],
   "note": ""
  },
  {
   "property": "C77",
   "status": "proved",
   "theorems": [
    "Mandoline.Gen2.C77_face_cell",
    "Mandoline.Gen2.C77_kept_iff",
    "Mandoline.Gen2.C77_corner_decides",
    "Mandoline.Gen2.C77_exterior_hole_refuted",
    "Mandoline.Gen2.C77_loops_of_active_cells"
   ],
   "note": "The intended property fails at: C77_exterior_hole_refuted. The statement in properties.jsonl describes what the code guarantees and where it fails; both are proved."
  },
  {
   "property": "C78",
   "status": "proved",
   "theorems": [
    "Mandoline.Gen2.C78_kills_constants",
    "Mandoline.Gen2.C78_dangling_row",
    "Mandoline.Gen2.C78_dangling_refuted",
    "Mandoline.Gen2.C78_facet_ok"
   ],
   "note": "The intended property fails at: C78_dangling_refuted. The statement in properties.jsonl describes what the code guarantees and where it fails; both are proved."
  },
  {
   "property": "C79",
   "status": "proved",
   "theorems": [
    "Mandoline.Gen2.C79_duplicate_has_no_faces",
    "Mandoline.Gen2.C79_region_leak",
    "Mandoline.Gen2.C79_separation_refuted"
   ],
   "note": "The intended property fails at: C79_separation_refuted. The statement in properties.jsonl describes what the code guarantees and where it fails; both are proved."
  },
  {
   "property": "C80",
   "status": "proved",
   "theorems": [
    "Mandoline.C80_edge_condensation",
    "Mandoline.C80_edge_average",
    "Mandoline.C80_triangle_condensation"
   ],
   "note": ""
  },
  {
   "property": "C81",
   "status": "proved",
   "theorems": [
    "Mandoline.Line.C81_project_nearest",
    "Mandoline.Line.C81_interp",
    "Mandoline.Line.C81_length"
   ],
   "note": ""
  },
  {
   "property": "C82",
   "status": "proved",
   "theorems": [
    "Mandoline.Triangulate.C82_face_covered",
    "Mandoline.Triangulate.C82_library_input",
    "Mandoline.Triangulate.C82_no_vertex_added",
    "Mandoline.Triangulate.C82_vertices_added",
    "Mandoline.Triangulate.C82_forbidden_vertices_refuted"
   ],
   "note": "The intended property fails at: C82_forbidden_vertices_refuted. The statement in properties.jsonl describes what the code guarantees and where it fails; both are proved."
  },
  {
   "property": "C83",
   "status": "proved",
   "theorems": [
    "Mandoline.Triangulate.C83_first_store",
    "Mandoline.Triangulate.C83_added_vertices_refuted",
    "Mandoline.Triangulate.C83_stale_vertices_refuted",
    "Mandoline.Triangulate.C83_store_idempotent",
    "Mandoline.Triangulate.C83_world_twice"
   ],
   "note": "The intended property fails at: C83_added_vertices_refuted, C83_stale_vertices_refuted. The statement in properties.jsonl describes what the code guarantees and where it fails; both are proved."
  },
  {
   "property": "C84",
   "status": "proved",
   "theorems": [
    "Mandoline.Areas2.C84_nesting_exists",
    "Mandoline.Pipe2.C84_boundary_kills_constants",
    "Mandoline.Pipe2.C84_no_duplicates",
    "Mandoline.Pipe2.C84_boundary_operator",
    "Mandoline.Pipe2.C84_duplicated_iff",
    "Mandoline.Pipe2.C84_edge_ok",
    "Mandoline.Pipe2.C84_planar_graph",
    "Mandoline.Pipe2.C84_framed",
    "Mandoline.Pipe2.C84_active_iff",
    "Mandoline.Pipe2.C84_loops_tile_active_cells",
    "Mandoline.Pipe2.C84_run_exists"
   ],
   "note": ""
  },
  {
   "property": "C85",
   "status": "proved",
   "theorems": [
    "Mandoline.Regions3.C85_sign_region",
    "Mandoline.Regions3.C85_sign_regions",
    "Mandoline.Regions3.C85_cell_faces",
    "Mandoline.Regions3.C85_boundary_faces",
    "Mandoline.Regions3.C85_face_regions",
    "Mandoline.Regions3.C85_one_region",
    "Mandoline.Regions3.C85_orig_face_regions"
   ],
   "note": ""
  },
  {
   "property": "C86",
   "status": "proved",
   "theorems": [
    "Mandoline.Centroid3.C86_four_thirds",
    "Mandoline.Centroid3.C86_centre_refuted",
    "Mandoline.Centroid3.C86_not_equivariant",
    "Mandoline.Centroid3.C86_region_zero",
    "Mandoline.Centroid3.C86_region_zero_refuted"
   ],
   "note": "The intended property fails at: C86_centre_refuted, C86_region_zero_refuted. The statement in properties.jsonl describes what the code guarantees and where it fails; both are proved."
  },
  {
   "property": "C87",
   "status": "proved",
   "theorems": [
    "Mandoline.CellCentroid.C87_cell_centroid",
    "Mandoline.CellCentroid.C87_within",
    "Mandoline.CellCentroid.C87_face_centroid",
    "Mandoline.CellCentroid.C87_adaptive",
    "Mandoline.CellCentroid.C87_coord",
    "Mandoline.CellCentroid.C87_active_cells",
    "Mandoline.CellCentroid.C87_centre_of_mass_refuted",
    "Mandoline.CellCentroid.C87_flat_refuted"
   ],
   "note": "The intended property fails at: C87_centre_of_mass_refuted, C87_flat_refuted. The statement in properties.jsonl describes what the code guarantees and where it fails; both are proved."
  },
  {
   "property": "C88",
   "status": "proved",
   "theorems": [
    "Mandoline.Vertices.VMesh.C88_vertices",
    "Mandoline.Vertices.VMesh.C88_vertex",
    "Mandoline.Vertices.VMesh.C88_grid_edge",
    "Mandoline.Vertices.VMesh.C88_grid_space_refuted"
   ],
   "note": "The intended property fails at: C88_grid_space_refuted. The statement in properties.jsonl describes what the code guarantees and where it fails; both are proved."
  },
  {
   "property": "C89",
   "status": "proved",
   "theorems": [
    "Mandoline.Centroid2.C89_cut",
    "Mandoline.Centroid2.C89_exterior",
    "Mandoline.Centroid2.C89_size",
    "Mandoline.Centroid2.C89_zero_area"
   ],
   "note": ""
  },
  {
   "property": "C90",
   "status": "proved",
   "theorems": [
    "Mandoline.Lengths2.LMesh.C90_axial",
    "Mandoline.Lengths2.LMesh.C90_downward_refuted",
    "Mandoline.Lengths2.LMesh.C90_mesh",
    "Mandoline.Lengths2.LMesh.C90_pieces_add_up",
    "Mandoline.Lengths2.LMesh.C90_unlisted",
    "Mandoline.Lengths2.LMesh.C90_exterior_swapped_refuted",
    "Mandoline.Lengths2.LMesh.C90_dual",
    "Mandoline.Lengths2.LMesh.C90_no_cut_edges_refuted",
    "Mandoline.Lengths2.LMesh.C90_hodge",
    "Mandoline.Lengths2.LMesh.C90_weights",
    "Mandoline.Lengths2.LMesh.C90_hodge2"
   ],
   "note": "The intended property fails at: C90_downward_refuted, C90_exterior_swapped_refuted, C90_no_cut_edges_refuted. The statement in properties.jsonl describes what the code guarantees and where it fails; both are proved."
  },
  {
   "property": "C91",
   "status": "proved",
   "theorems": [
    "Mandoline.Surface2.C91_adjacency",
    "Mandoline.Surface2.C91_dual_lengths",
    "Mandoline.Surface2.C91_boundary",
    "Mandoline.Surface2.C91_laplacian",
    "Mandoline.Surface2.C91_closed",
    "Mandoline.Surface2.C91_orientation_refuted"
   ],
   "note": "The intended property fails at: C91_orientation_refuted. The statement in properties.jsonl describes what the code guarantees and where it fails; both are proved."
  },
  {
   "property": "C92",
   "status": "proved",
   "theorems": [
    "Mandoline.GridBoundary.C92_mesh2",
    "Mandoline.GridBoundary.C92_mesh3"
   ],
   "note": ""
  },
  {
   "property": "C93",
   "status": "proved",
   "theorems": [
    "Mandoline.FaceVolume.C93_piece_area",
    "Mandoline.FaceVolume.C93_entries",
    "Mandoline.FaceVolume.C93_mesh_face",
    "Mandoline.FaceVolume.C93_pieces_add_up",
    "Mandoline.FaceVolume.C93_axial_face",
    "Mandoline.FaceVolume.C93_no_triangles_refuted"
   ],
   "note": "The intended property fails at: C93_no_triangles_refuted. The statement in properties.jsonl describes what the code guarantees and where it fails; both are proved."
  },
  {
   "property": "C94",
   "status": "proved",
   "theorems": [
    "Mandoline.DualLengths3.C94_cut_cut",
    "Mandoline.DualLengths3.C94_zero",
    "Mandoline.DualLengths3.C94_exterior",
    "Mandoline.DualLengths3.C94_unit",
    "Mandoline.DualLengths3.C94_size",
    "Mandoline.DualLengths3.C94_weights",
    "Mandoline.DualLengths3.C94_normal_distance_refuted"
   ],
   "note": "The intended property fails at: C94_normal_distance_refuted. The statement in properties.jsonl describes what the code guarantees and where it fails; both are proved."
  },
  {
   "property": "C95",
   "status": "proved",
   "theorems": [
    "Mandoline.Gen3.C95_flag_iff",
    "Mandoline.Gen3.C95_flag_geometric",
    "Mandoline.Gen3.C95_outside"
   ],
   "note": ""
  },
  {
   "property": "C96",
   "status": "proved",
   "theorems": [
    "Mandoline.Gen3.C96_boundary_edges",
    "Mandoline.Gen3.C96_is_boundary_cell"
   ],
   "note": ""
  },
  {
   "property": "C97",
   "status": "proved",
   "theorems": [
    "Mandoline.Gen3.C97_two_cells",
    "Mandoline.Gen3.C97_external",
    "Mandoline.Gen3.C97_no_external",
    "Mandoline.Gen3.C97_four_vertices"
   ],
   "note": ""
  },
  {
   "property": "C98",
   "status": "proved",
   "theorems": [
    "Mandoline.Gen3.C98_sequential_ids",
    "Mandoline.Gen3.C98_any_schedule",
    "Mandoline.Gen3.C98_no_face_lost",
    "Mandoline.Gen3.C98_parallel_refuted",
    "Mandoline.Gen3.C98_empty_plane_refuted"
   ],
   "note": "The intended property fails at: C98_parallel_refuted, C98_empty_plane_refuted. The statement in properties.jsonl describes what the code guarantees and where it fails; both are proved."
  },
  {
   "property": "C99",
   "status": "proved",
   "theorems": [
    "Mandoline.Gen3.C99_loop_kept",
    "Mandoline.Gen3.C99_plane_faces",
    "Mandoline.Gen3.C99_every_cell"
   ],
   "note": ""
  },
  {
   "property": "C100",
   "status": "proved",
   "theorems": [
    "Mandoline.Gen3.C100_generate",
    "Mandoline.Gen3.C100_mesh_faces_keep_numbers",
    "Mandoline.Gen3.C100_grid_cell",
    "Mandoline.Gen3.C100_folded_refuted"
   ],
   "note": "The intended property fails at: C100_folded_refuted. The statement in properties.jsonl describes what the code guarantees and where it fails; both are proved."
  },
  {
   "property": "C101",
   "status": "proved",
   "theorems": [
    "Mandoline.Gen3.C101_facet_ok",
    "Mandoline.Gen3.C101_grid_boundary_faces",
    "Mandoline.Gen3.C101_mesh_exists",
    "Mandoline.Gen3.C101_kills_constants",
    "Mandoline.Gen3.C101_lost_cell_refuted"
   ],
   "note": "The intended property fails at: C101_lost_cell_refuted. The statement in properties.jsonl describes what the code guarantees and where it fails; both are proved."
  },
  {
   "property": "C102",
   "status": "proved",
   "theorems": [
    "Mandoline.EdgesOut.C102_edges",
    "Mandoline.EdgesOut.C102_slices",
    "Mandoline.EdgesOut.C102_edges2",
    "Mandoline.EdgesOut.C102_edges3",
    "Mandoline.EdgesOut.C102_grid_edges3_refuted",
    "Mandoline.EdgesOut.C102_mesh_edges",
    "Mandoline.EdgesOut.C102_grid_edge_mask"
   ],
   "note": "The intended property fails at: C102_grid_edges3_refuted. The statement in properties.jsonl describes what the code guarantees and where it fails; both are proved."
  },
  {
   "property": "C103",
   "status": "proved",
   "theorems": [
    "Mandoline.BaryMap.C103_barycentric_rows",
    "Mandoline.BaryMap.C103_position",
    "Mandoline.BaryMap.C103_single",
    "Mandoline.BaryMap.C103_shared_crossing_refuted",
    "Mandoline.BaryMap.C103_cut_vertices"
   ],
   "note": "The intended property fails at: C103_shared_crossing_refuted. The statement in properties.jsonl describes what the code guarantees and where it fails; both are proved."
  },
  {
   "property": "C104",
   "status": "proved",
   "theorems": [
    "Mandoline.AddEdges.C104_first_call",
    "Mandoline.AddEdges.C104_repeated_refuted",
    "Mandoline.AddEdges.C104_second_call_refuted",
    "Mandoline.AddEdges.C104_record"
   ],
   "note": "The intended property fails at: C104_repeated_refuted, C104_second_call_refuted. The statement in properties.jsonl describes what the code guarantees and where it fails; both are proved."
  },
  {
   "property": "C105",
   "status": "proved",
   "theorems": [
    "Mandoline.Validation.C105_verdict",
    "Mandoline.Validation.C105_uncut_cell_refuted",
    "Mandoline.Validation.C105_stray_refuted"
   ],
   "note": "The intended property fails at: C105_uncut_cell_refuted, C105_stray_refuted. The statement in properties.jsonl describes what the code guarantees and where it fails; both are proved."
  },
  {
   "property": "C106",
   "status": "proved",
   "theorems": [
    "Mandoline.Validation.C106_verdict",
    "Mandoline.Validation.C106_exact_rejected_refuted",
    "Mandoline.Validation.C106_wrong_accepted_refuted",
    "Mandoline.Validation.C106_past_end_refuted",
    "Mandoline.Validation.C106_brep"
   ],
   "note": "The intended property fails at: C106_exact_rejected_refuted, C106_wrong_accepted_refuted, C106_past_end_refuted. The statement in properties.jsonl describes what the code guarantees and where it fails; both are proved."
  },
  {
   "property": "C107",
   "status": "proved",
   "theorems": [
    "Mandoline.CellCollapser.C107_closed_without_folded",
    "Mandoline.Watertight.C107_fan",
    "Mandoline.Watertight.C107_watertight",
    "Mandoline.Watertight.C107_flaps",
    "Mandoline.Watertight.C107_one_flap_refuted",
    "Mandoline.Watertight.C107_free_edge_folded",
    "Mandoline.Watertight.C107_volume_moves_refuted",
    "Mandoline.Watertight.C107_get_mesh_refuted",
    "Mandoline.Watertight.C107_additional_vertices",
    "Mandoline.Watertight.C107_mesh_cell_refuted",
    "Mandoline.Watertight.C107_fan_faces",
    "Mandoline.Triangulate.C107_hole_faces"
   ],
   "note": "The intended property fails at: C107_one_flap_refuted, C107_volume_moves_refuted, C107_get_mesh_refuted, C107_mesh_cell_refuted. The statement in properties.jsonl describes what the code guarantees and where it fails; both are proved."
  },
  {
   "property": "C108",
   "status": "proved",
   "theorems": [
    "Mandoline.FaceCollapser.C108_marked_loops",
    "Mandoline.TriInput.C108_pieces_tile_triangle",
    "Mandoline.TriInput.C108_sides_paired",
    "Mandoline.TriInput.C108_run_exists"
   ],
   "note": ""
  },
  {
   "property": "C109",
   "status": "proved",
   "theorems": [
    "Mandoline.SurfInput.C109_index_position",
    "Mandoline.SurfInput.C109_faces",
    "Mandoline.SurfInput.C109_boundary",
    "Mandoline.SurfInput.C109_closed",
    "Mandoline.SurfInput.C109_edge_pieces",
    "Mandoline.SurfInput.C109_edges",
    "Mandoline.SurfInput.C109_run_exists"
   ],
   "note": ""
  },
  {
   "property": "C110",
   "status": "proved",
   "theorems": [
    "Mandoline.CellCollapser.C110_same_grid_cell",
    "Mandoline.CellCollapser.C110_side_cell_unique",
    "Mandoline.CellCollapser.C110_volume",
    "Mandoline.CellCollapser.C110_grid_cell"
   ],
   "note": ""
  },
  {
   "property": "C111",
   "status": "proved",
   "theorems": [
    "Mandoline.Gen3.C111_grid_cell",
    "Mandoline.Gen3.C111_volume",
    "Mandoline.Gen3.C111_validated"
   ],
   "note": ""
  },
  {
   "property": "C112",
   "status": "proved",
   "theorems": [
    "Mandoline.Planar.C112_area",
    "Mandoline.Gen3.C112_hem_of_loops",
    "Mandoline.Gen3.C112_single_loops",
    "Mandoline.Gen3.C112_wall_made",
    "Mandoline.Gen3.C112_plane_faces",
    "Mandoline.Gen3.C112_validated",
    "Mandoline.CellCollapser.C112_walled",
    "Mandoline.CellCollapser.C112_wall_area"
   ],
   "note": ""
  },
  {
   "property": "C113",
   "status": "proved",
   "theorems": [
    "Mandoline.Paired.VMesh.C113_accepts_iff",
    "Mandoline.Paired.VMesh.C113_face_one_refuted",
    "Mandoline.Paired.VMesh.C113_same_side_refuted",
    "Mandoline.Paired.C113_generated"
   ],
   "note": "The intended property fails at: C113_face_one_refuted, C113_same_side_refuted. The statement in properties.jsonl describes what the code guarantees and where it fails; both are proved."
  },
  {
   "property": "C114",
   "status": "proved",
   "theorems": [
    "Mandoline.Gen3.C114_containment",
    "Mandoline.Gen3.C114_utilization",
    "Mandoline.Gen3.C114_utilization_generated",
    "Mandoline.Gen3.C114_triangle_refuted",
    "Mandoline.Gen3.C114_quad_refuted",
    "Mandoline.Gen3.C114_pentagon_refuted",
    "Mandoline.Gen3.C114_moved"
   ],
   "note": "The intended property fails at: C114_triangle_refuted, C114_quad_refuted, C114_pentagon_refuted. The statement in properties.jsonl describes what the code guarantees and where it fails; both are proved."
  },
  {
   "property": "C115",
   "status": "proved",
   "theorems": [
    "Mandoline.C115_mesh_vertices",
    "Mandoline.C115_views",
    "Mandoline.C115_grid_space_refuted",
    "Mandoline.C115_input_numbers",
    "Mandoline.C115_input_vertices",
    "Mandoline.C115_vertex_refuted",
    "Mandoline.C115_vertex_shift_refuted",
    "Mandoline.C115_reindexer",
    "Mandoline.C115_compact_refuted",
    "Mandoline.C115_shift_refuted"
   ],
   "note": "The intended property fails at: C115_grid_space_refuted, C115_vertex_refuted, C115_vertex_shift_refuted, C115_compact_refuted, C115_shift_refuted. The statement in properties.jsonl describes what the code guarantees and where it fails; both are proved."
  },
  {
   "property": "C116",
   "status": "proved",
   "theorems": [
    "Mandoline.FacesUtilized.C116_accepts",
    "Mandoline.FacesUtilized.C116_surface",
    "Mandoline.FacesUtilized.C116_boundary_refuted",
    "Mandoline.FacesUtilized.C116_wide_refuted",
    "Mandoline.FacesUtilized.C116_exterior_columns",
    "Mandoline.FacesUtilized.C116_cut_columns",
    "Mandoline.FacesUtilized.C116_wall_column",
    "Mandoline.FacesUtilized.C116_against_refuted",
    "Mandoline.FacesUtilized.C116_accepted"
   ],
   "note": "The intended property fails at: C116_boundary_refuted, C116_wide_refuted, C116_against_refuted. The statement in properties.jsonl describes what the code guarantees and where it fails; both are proved."
  },
  {
   "property": "C117",
   "status": "proved",
   "theorems": [
    "Mandoline.Slicer.C117_plane",
    "Mandoline.Slicer.C117_plane_every",
    "Mandoline.Slicer.C117_origin_refuted",
    "Mandoline.Slicer.C117_middle",
    "Mandoline.Slicer.C117_inside",
    "Mandoline.Slicer.C117_inside_refuted",
    "Mandoline.Slicer.C117_flat_refuted",
    "Mandoline.Slicer.C117_above",
    "Mandoline.Slicer.C117_triangles",
    "Mandoline.Slicer.C117_extra_refuted"
   ],
   "note": "The intended property fails at: C117_origin_refuted, C117_inside_refuted, C117_flat_refuted, C117_extra_refuted. The statement in properties.jsonl describes what the code guarantees and where it fails; both are proved."
  },
  {
   "property": "C118",
   "status": "proved",
   "theorems": [
    "Mandoline.ExtVal.C118_valence",
    "Mandoline.ExtVal.C118_accepts",
    "Mandoline.ExtVal.C118_unit_cells",
    "Mandoline.ExtVal.C118_graded_refuted",
    "Mandoline.ExtVal.C118_factory"
   ],
   "note": "The intended property fails at: C118_graded_refuted. The statement in properties.jsonl describes what the code guarantees and where it fails; both are proved."
  },
  {
   "property": "C119",
   "status": "proved",
   "theorems": [
    "Mandoline.C119_face_queries",
    "Mandoline.C119_loaded_columns",
    "Mandoline.C119_loaded_row",
    "Mandoline.C119_boundary_refuted"
   ],
   "note": "The intended property fails at: C119_boundary_refuted. The statement in properties.jsonl describes what the code guarantees and where it fails; both are proved."
  },
  {
   "property": "C120",
   "status": "proved",
   "theorems": [
    "Mandoline.GridSolve.C120_fix_entries",
    "Mandoline.GridSolve.C120_energy",
    "Mandoline.GridSolve.C120_definite",
    "Mandoline.GridSolve.C120_solutions",
    "Mandoline.GridSolve.C120_idempotent",
    "Mandoline.GridSolve.C120_column_only_refuted",
    "Mandoline.GridSolve.C120_edge_ratio"
   ],
   "note": "The intended property fails at: C120_column_only_refuted. The statement in properties.jsonl describes what the code guarantees and where it fails; both are proved."
  },
  {
   "property": "C121",
   "status": "proved",
   "theorems": [
    "Mandoline.Slicer.C121_edges",
    "Mandoline.Slicer.C121_plane_edges",
    "Mandoline.Slicer.C121_wall_border",
    "Mandoline.Slicer.C121_caps_border",
    "Mandoline.Slicer.C121_closed_iff",
    "Mandoline.Slicer.C121_hole_refuted",
    "Mandoline.Slicer.C121_orientation",
    "Mandoline.Slicer.C121_outward",
    "Mandoline.Slicer.C121_outward_refuted"
   ],
   "note": "The intended property fails at: C121_hole_refuted, C121_outward_refuted. The statement in properties.jsonl describes what the code guarantees and where it fails; both are proved."
  },
  {
   "property": "C122",
   "status": "proved",
   "theorems": [
    "Mandoline.LoopGroups.C122_vertex_cells",
    "Mandoline.LoopGroups.C122_tied",
    "Mandoline.LoopGroups.C122_nested",
    "Mandoline.LoopGroups.C122_one_cell",
    "Mandoline.LoopGroups.C122_line_refuted",
    "Mandoline.LoopGroups.C122_open_boundary"
   ],
   "note": "The intended property fails at: C122_line_refuted. The statement in properties.jsonl describes what the code guarantees and where it fails; both are proved."
  },
  {
   "property": "C123",
   "status": "proved",
   "theorems": [
    "Mandoline.Pcwn.C123_count",
    "Mandoline.Pcwn.C123_check",
    "Mandoline.Pcwn.C123_other_cells_refuted",
    "Mandoline.Pcwn.C123_counts_refuted",
    "Mandoline.Pcwn.C123_uniform",
    "Mandoline.Pcwn.C123_generated",
    "Mandoline.Pcwn.C123_flap_refuted"
   ],
   "note": "The intended property fails at: C123_other_cells_refuted, C123_counts_refuted, C123_flap_refuted. The statement in properties.jsonl describes what the code guarantees and where it fails; both are proved."
  },
  {
   "property": "C124",
   "status": "proved",
   "theorems": [
    "Mandoline.MeshWriter2.C124_labels",
    "Mandoline.MeshWriter2.C124_no_labels",
    "Mandoline.MeshWriter2.C124_facet_edges",
    "Mandoline.MeshWriter2.C124_facet_once",
    "Mandoline.MeshWriter2.C124_sides",
    "Mandoline.MeshWriter2.C124_exterior_loop",
    "Mandoline.MeshWriter2.C124_exterior_clockwise",
    "Mandoline.MeshWriter2.C124_elements",
    "Mandoline.MeshWriter2.C124_read_back",
    "Mandoline.MeshWriter2.C124_read_back_refuted"
   ],
   "note": "The intended property fails at: C124_read_back_refuted. The statement in properties.jsonl describes what the code guarantees and where it fails; both are proved."
  },
  {
   "property": "C125",
   "status": "proved",
   "theorems": [
    "Mandoline.DualEdges.C125_dual_lengths",
    "Mandoline.DualEdges.C125_unwritten_entries",
    "Mandoline.DualEdges.C125_dual_offsets",
    "Mandoline.DualEdges.C125_equal_widths",
    "Mandoline.DualEdges.C125_different_widths_refuted",
    "Mandoline.DualEdges.C125_corner_numbers",
    "Mandoline.DualEdges.C125_corner_numbers_refuted"
   ],
   "note": "The intended property fails at: C125_different_widths_refuted, C125_corner_numbers_refuted. The statement in properties.jsonl describes what the code guarantees and where it fails; both are proved."
  },
  {
   "property": "C126",
   "status": "proved",
   "theorems": [
    "Mandoline.Areas2.C126_one_per_cell",
    "Mandoline.Areas2.C126_exterior",
    "Mandoline.Areas2.C126_cut_area",
    "Mandoline.Areas2.C126_triangulated",
    "Mandoline.Areas2.C126_cell_sum",
    "Mandoline.Areas2.C126_total_area"
   ],
   "note": ""
  },
  {
   "property": "C127",
   "status": "proved",
   "theorems": [
    "Mandoline.Gen3.C127_entries",
    "Mandoline.Gen3.C127_total",
    "Mandoline.Gen3.C127_fills_domain"
   ],
   "note": ""
  },
  {
   "property": "C128",
   "status": "proved",
   "theorems": [
    "Mandoline.Draw2.C128_exterior_clockwise",
    "Mandoline.Draw2.C128_directions",
    "Mandoline.Draw2.C128_signed_total",
    "Mandoline.Draw2.C128_drawn_area"
   ],
   "note": ""
  },
  {
   "property": "C129",
   "status": "proved",
   "theorems": [
    "Mandoline.C129_fail_together",
    "Mandoline.C129_masks",
    "Mandoline.C129_fails",
    "Mandoline.C129_exterior_fails",
    "Mandoline.C129_intended_refuted"
   ],
   "note": "The intended property fails at: C129_intended_refuted. The statement in properties.jsonl describes what the code guarantees and where it fails; both are proved."
  },
  {
   "property": "C130",
   "status": "proved",
   "theorems": [
    "Mandoline.Life.C130_memory_safe",
    "Mandoline.Life.C130_value_semantics",
    "Mandoline.Life.C130_move_preserves",
    "Mandoline.Life.C130_leaks",
    "Mandoline.Life.C130_self_move_refuted"
   ],
   "note": "The intended property fails at: C130_self_move_refuted. The statement in properties.jsonl describes what the code guarantees and where it fails; both are proved."
  },
  {
   "property": "C131",
   "status": "proved",
   "theorems": [
    "Mandoline.Life.C131_protocol",
    "Mandoline.Life.C131_grid_shown",
    "Mandoline.Life.C131_box_ordered",
    "Mandoline.Life.C131_mesh_and_bbox_refuted",
    "Mandoline.Life.C131_mesh_and_bbox_twice",
    "Mandoline.Life.C131_from_grid",
    "Mandoline.Life.C131_from_bbox"
   ],
   "note": "The intended property fails at: C131_mesh_and_bbox_refuted. The statement in properties.jsonl describes what the code guarantees and where it fails; both are proved."
  },
  {
   "property": "C132",
   "status": "proved",
   "theorems": [
    "Mandoline.WriteObj.C132_indices_ignored_refuted",
    "Mandoline.WriteObj.C132_faces",
    "Mandoline.WriteObj.C132_indices_honoured",
    "Mandoline.WriteObj.C132_cut_orientation",
    "Mandoline.WriteObj.C132_exterior_inward_refuted"
   ],
   "note": "The intended property fails at: C132_indices_ignored_refuted, C132_exterior_inward_refuted. The statement in properties.jsonl describes what the code guarantees and where it fails; both are proved."
  },
  {
   "property": "C133",
   "status": "proved",
   "theorems": [
    "Mandoline.Cmdline.C133_translation",
    "Mandoline.Cmdline.C133_scaling",
    "Mandoline.Cmdline.C133_vertices",
    "Mandoline.Cmdline.C133_box",
    "Mandoline.Cmdline.C133_prescaled_normalize_refuted",
    "Mandoline.Cmdline.C133_shape",
    "Mandoline.Cmdline.C133_no_shape",
    "Mandoline.Cmdline.C133_inputs"
   ],
   "note": "The intended property fails at: C133_prescaled_normalize_refuted. The statement in properties.jsonl describes what the code guarantees and where it fails; both are proved."
  }
 ]
}