{
 "C03": {
  "note": "The intended property fails at: C03_union_refuted. The statement in properties.jsonl describes what the code guarantees and where it fails; both are proved."
 },
 "C10": {
  "note": "The intended property fails at: C10_approx_refuted. The statement in properties.jsonl describes what the code guarantees and where it fails; both are proved."
 },
 "C22": {
  "note": "The intended property fails at: C22_high_facets_refuted. The statement in properties.jsonl describes what the code guarantees and where it fails; both are proved."
 },
 "C25": {
  "note": "The intended property fails at: C25_empty_geometry_refuted, C25_padding_refuted. The statement in properties.jsonl describes what the code guarantees and where it fails; both are proved."
 },
 "C26": {
  "note": "The intended property fails at: C26_outside_refuted. The statement in properties.jsonl describes what the code guarantees and where it fails; both are proved."
 },
 "C28": {
  "note": "The intended property fails at: C28_face_projection_refuted, C28_cell_volumes_noncontiguous_refuted. The statement in properties.jsonl describes what the code guarantees and where it fails; both are proved."
 },
 "C29": {
  "note": "The intended property fails at: C29_boundary_facets_refuted. The statement in properties.jsonl describes what the code guarantees and where it fails; both are proved."
 },
 "C31": {
  "note": "The intended property fails at: C31_grid_refuted. The statement in properties.jsonl describes what the code guarantees and where it fails; both are proved. Defect property: operators only defined for square boundary matrices."
 },
 "C32": {
  "note": "The intended property fails at: C32_high_side_column_refuted. The statement in properties.jsonl describes what the code guarantees and where it fails; both are proved."
 },
 "C33": {
  "note": "The intended property fails at: C33_self_contact_refuted. The statement in properties.jsonl describes what the code guarantees and where it fails; both are proved."
 },
 "C34": {
  "note": "The intended property fails at: C34_degenerate_refuted. The statement in properties.jsonl describes what the code guarantees and where it fails; both are proved."
 },
 "C37": {
  "note": "The intended property fails at: C37_refuted. The statement in properties.jsonl describes what the code guarantees and where it fails; both are proved. Defect property."
 },
 "C39": {
  "note": "The intended property fails at: C39_3d_enclosed_adaptive_refuted, C39_2d_outside_refuted. The statement in properties.jsonl describes what the code guarantees and where it fails; both are proved."
 },
 "C41": {
  "note": "The intended property fails at: C41_negative_face_duplicated_refuted. The statement in properties.jsonl describes what the code guarantees and where it fails; both are proved."
 },
 "C42": {
  "note": "The intended property fails at: C42_refuted. The statement in properties.jsonl describes what the code guarantees and where it fails; both are proved."
 },
 "C43": {
  "note": "The intended property fails at: C43_edges_lost_refuted, C43_adaptive_faces_refuted. The statement in properties.jsonl describes what the code guarantees and where it fails; both are proved."
 },
 "C44": {
  "note": "The intended property fails at: C44_topology_alone_refuted, C44_grid_alone_refuted, C44_ctor_threshold_refuted, C44_fewer_vertices_refuted. The statement in properties.jsonl describes what the code guarantees and where it fails; both are proved."
 },
 "C45": {
  "note": "The intended property fails at: C45_in_cell_refuted. The statement in properties.jsonl describes what the code guarantees and where it fails; both are proved."
 },
 "C46": {
  "note": "The intended property fails at: C46_start_dependent_refuted. The statement in properties.jsonl describes what the code guarantees and where it fails; both are proved."
 },
 "C48": {
  "note": "The intended property fails at: C48_wide_grid_refuted, C48_tall_grid_refuted. The statement in properties.jsonl describes what the code guarantees and where it fails; both are proved."
 },
 "C49": {
  "note": "The intended property fails at: C49_high_side_refuted. The statement in properties.jsonl describes what the code guarantees and where it fails; both are proved."
 },
 "C50": {
  "note": "The intended property fails at: C50_edge_spacing_refuted, C50_mesh_edge_counted_twice_refuted. The statement in properties.jsonl describes what the code guarantees and where it fails; both are proved."
 },
 "C52": {
  "note": "The intended property fails at: C52_exterior_unbounded_refuted. The statement in properties.jsonl describes what the code guarantees and where it fails; both are proved."
 },
 "C54": {
  "note": "The intended property fails at: C54_open_curve_refuted, C54_many_edges_refuted. The statement in properties.jsonl describes what the code guarantees and where it fails; both are proved."
 },
 "C55": {
  "note": "The intended property fails at: C55_swapped_refuted, C55_gap_refuted. The statement in properties.jsonl describes what the code guarantees and where it fails; both are proved."
 },
 "C56": {
  "note": "The intended property fails at: C56_bake_without_grid_refuted. The statement in properties.jsonl describes what the code guarantees and where it fails; both are proved. Defect property."
 },
 "C58": {
  "note": "The intended property fails at: C58_crossings_inside_grid_refuted. The statement in properties.jsonl describes what the code guarantees and where it fails; both are proved. Defect property."
 },
 "C62": {
  "note": "The intended property fails at: C62_boundary_face_mask_refuted, C62_wrong_cells_refuted. The statement in properties.jsonl describes what the code guarantees and where it fails; both are proved."
 },
 "C69": {
  "note": "The intended property fails at: C69_pinched_loop_refuted. The statement in properties.jsonl describes what the code guarantees and where it fails; both are proved."
 },
 "C71": {
  "note": "The intended property fails at: C71_inner_cell_lost_refuted. The statement in properties.jsonl describes what the code guarantees and where it fails; both are proved."
 },
 "C72": {
  "note": "The intended property fails at: C72_shared_crossing_refuted. The statement in properties.jsonl describes what the code guarantees and where it fails; both are proved."
 },
 "C77": {
  "note": "The intended property fails at: C77_exterior_hole_refuted. The statement in properties.jsonl describes what the code guarantees and where it fails; both are proved."
 },
 "C78": {
  "note": "The intended property fails at: C78_dangling_refuted. The statement in properties.jsonl describes what the code guarantees and where it fails; both are proved."
 },
 "C79": {
  "note": "The intended property fails at: C79_separation_refuted. The statement in properties.jsonl describes what the code guarantees and where it fails; both are proved."
 },
 "C18": {
  "note": "The comparator is not a strict weak order: C18_not_strict_weak, C18_not_transitive."
 },
 "C59": {
  "note": "Defect property: is_cut returns the negation."
 }
}