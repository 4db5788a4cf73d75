{"claims": [
 {"property": "C01", "status": "proved", "theorems": ["VecGeom.NavIndex.C01_create"], "note": ""},
 {"property": "C02", "status": "proved", "theorems": ["VecGeom.NavIndex.C02_history", "VecGeom.NavIndex.C02_observe", "VecGeom.NavIndex.C02_outside_level"], "note": ""},
 {"property": "C03", "status": "proved", "theorems": ["VecGeom.NavIndex.C03_injective", "VecGeom.NavIndex.C03_total"], "note": ""},
 {"property": "C04", "status": "proved", "theorems": ["VecGeom.NavIndex.C04_topMatrix", "VecGeom.NavIndex.C04_topMatrix_acc", "VecGeom.NavIndex.C04_cache_transparent", "VecGeom.NavIndex.C04_same_as_path"], "note": ""},
 {"property": "C05", "status": "proved", "theorems": ["VecGeom.NavIndex.C05_state_roundtrip", "VecGeom.NavIndex.C05_list_roundtrip"], "note": ""},
 {"property": "C06", "status": "proved", "theorems": ["VecGeom.NavPath.C06_history", "VecGeom.NavPath.C06_observe", "VecGeom.NavPath.C06_lastExited", "VecGeom.NavPath.C06_lastExited_counterexample", "VecGeom.NavPath.C06_copyTo_full_counterexample", "VecGeom.NavPath.C06_copyTo_maxLevel_counterexample"], "note": ""},
 {"property": "C07", "status": "proved", "theorems": ["VecGeom.NavPath.C07_roundtrip", "VecGeom.NavPath.C07_boundary_kept"], "note": ""},
 {"property": "C08", "status": "proved", "theorems": ["VecGeom.NavIndex.C08_index_distance", "VecGeom.NavIndex.C08_index_metric", "VecGeom.NavIndex.C08_index_outside", "VecGeom.NavPath.C08_distance", "VecGeom.NavPath.C08_lcp_spec", "VecGeom.NavPath.C08_metric"], "note": ""},
 {"property": "C09", "status": "partial", "theorems": ["VecGeom.NavPath.C09_topMatrix_partial", "VecGeom.NavPath.C09_world_counterexample"], "note": "holds when the world placement acts as the identity; C09_world_counterexample shows it fails otherwise"},
 {"property": "C10", "status": "proved", "theorems": ["VecGeom.BitSet.C10_make", "VecGeom.BitSet.C10_test", "VecGeom.BitSet.C10_set", "VecGeom.BitSet.C10_set_observed", "VecGeom.BitSet.C10_reference", "VecGeom.BitSet.C10_history"], "note": ""},
 {"property": "C11", "status": "partial", "theorems": ["VecGeom.BitSet.C11_actual", "VecGeom.BitSet.C11_count_partial", "VecGeom.BitSet.C11_counterexample"], "note": "exact for start positions at bit 0 or 7 of a byte; C11_actual gives the answer for every start, C11_counterexample shows it is wrong inside a byte"},
 {"property": "C12", "status": "partial", "theorems": ["VecGeom.BitSet.C12_first_set_partial", "VecGeom.BitSet.C12_first_null_partial", "VecGeom.BitSet.C12_first_counterexample", "VecGeom.BitSet.C12_last_set", "VecGeom.BitSet.C12_last_null", "VecGeom.BitSet.C12_last_empty"], "note": "upward searches need that no bit is stored past the logical size (C12_first_counterexample otherwise); downward searches need a non-empty set (C12_last_empty: undefined otherwise)"},
 {"property": "C13", "status": "proved", "theorems": ["VecGeom.BitSet.C13_stored_bits", "VecGeom.BitSet.C13_and", "VecGeom.BitSet.C13_or", "VecGeom.BitSet.C13_xor", "VecGeom.BitSet.C13_shift_left", "VecGeom.BitSet.C13_shift_right", "VecGeom.BitSet.C13_shift_undefined", "VecGeom.BitSet.C13_hidden_bits"], "note": ""},
 {"property": "C14", "status": "partial", "theorems": ["VecGeom.BitSet.C14_equal_partial", "VecGeom.BitSet.C14_equivalence_partial", "VecGeom.BitSet.C14_hidden_bits"], "note": "holds for sets without bits stored past the logical size; C14_hidden_bits is a counterexample reachable with <<="},
 {"property": "C15", "status": "partial", "theorems": ["VecGeom.BitSet.C15_reset", "VecGeom.BitSet.C15_reset_true_partial", "VecGeom.BitSet.C15_reset_true_counterexample"], "note": "ResetAllBits(false) and Clear are exact; ResetAllBits(true) sets only every eighth bit (C15_reset_true_counterexample)"},
 {"property": "C16", "status": "partial", "theorems": ["VecGeom.Vec.C16_observe", "VecGeom.Vec.C16_make", "VecGeom.Vec.C16_history", "VecGeom.Vec.C16_from_new", "VecGeom.Vec.C16_capacity_zero", "VecGeom.Vec.C16_erase_iterator", "VecGeom.Vec.C16_copy", "VecGeom.Vec.C16_assign_actual", "VecGeom.Vec.C16_assign_partial", "VecGeom.Vec.C16_assign_counterexample", "VecGeom.Vec.C16_initializer_list", "VecGeom.Vec.C16_view", "VecGeom.Vec.C16_erase_last_leaks"], "note": "assignment appends to a non-empty target (C16_assign_counterexample), a capacity of zero cannot grow (C16_capacity_zero) and construction from an initializer list writes to unowned memory (C16_initializer_list); the histories of all other operations are exact"},
 {"property": "C17", "status": "proved", "theorems": ["VecGeom.Voxel.C17_cell_key_cell", "VecGeom.Voxel.C17_key_cell_key", "VecGeom.Voxel.C17_injective", "VecGeom.Voxel.C17_overflow"], "note": "for grids whose number of voxels fits an int; C17_overflow shows that larger grids overflow"},
 {"property": "C18", "status": "partial", "theorems": ["VecGeom.Voxel.C18_point_in_voxel", "VecGeom.Voxel.C18_disjoint", "VecGeom.Voxel.C18_position_partial", "VecGeom.Voxel.C18_position_counterexample", "VecGeom.Voxel.C18_upper_face"], "note": "voxel choice and disjointness proved for the half open region; the reported mid point is wrong from the fourth cell on (C18_position_counterexample) and points on an upper face get a foreign voxel (C18_upper_face)"},
 {"property": "C19", "status": "partial", "theorems": ["VecGeom.Voxel.C19_lookup_partial", "VecGeom.Voxel.C19_clear_counterexample", "VecGeom.Voxel.C19_ungrouped", "VecGeom.Voxel.C19_scalar_partial", "VecGeom.Voxel.C19_scalar_clear_counterexample"], "note": "fails when the first key after a clear equals the last key before it, and for the first key -1 (C19_clear_counterexample)"},
 {"property": "C20", "status": "proved", "theorems": ["VecGeom.Visit.C20_visit_each_path_once", "VecGeom.Visit.C20_total_node_count", "VecGeom.Visit.C20_max_depth", "VecGeom.Visit.C20_all_placed", "VecGeom.Visit.C20_all_logical", "VecGeom.Visit.C20_paths_for_logical"], "note": ""},
 {"property": "C21", "status": "proved", "theorems": ["VecGeom.Registry.C21_find_placed", "VecGeom.Registry.C21_find_logical", "VecGeom.Registry.C21_find_sound", "VecGeom.Registry.C21_find_placed_label", "VecGeom.Registry.C21_find_logical_label", "VecGeom.Registry.C21_label_of_id", "VecGeom.Registry.C21_closed_not_registered", "VecGeom.Registry.C21_clear_counterexample"], "note": "exact while the geometry is open (C21_find_placed, C21_find_logical); lookups by label and soundness for every history. C21_clear_counterexample: Clear restarts the ids, so destroying an older volume afterwards removes a live one"},
 {"property": "C22", "status": "partial", "theorems": ["VecGeom.Registry.C22_close_safe_iff", "VecGeom.Registry.C22_close_safe", "VecGeom.Registry.C22_gap_counterexample", "VecGeom.Registry.C22_slots", "VecGeom.Registry.C22_same_geometry", "VecGeom.Registry.C22_reachable_in_buffer", "VecGeom.Registry.C22_components"], "note": "closing is safe exactly if the ids in use are 0..count-1 (C22_close_safe_iff); then every volume is in the slot of its id and the geometry is unchanged. Destroying a volume before closing makes it write outside the buffer (C22_gap_counterexample)"},
 {"property": "C23", "status": "proved", "theorems": ["VecGeom.Trans3.C23_point_roundtrip_master", "VecGeom.Trans3.C23_point_roundtrip_local", "VecGeom.Trans3.C23_direction_roundtrip", "VecGeom.Trans3.C23_isometry", "VecGeom.Trans3.C23_translation", "VecGeom.Trans3.C23_scaled_counterexample"], "note": ""},
 {"property": "C24", "status": "proved", "theorems": ["VecGeom.Trans3.C24_inverseTransform", "VecGeom.Trans3.C24_transform", "VecGeom.Trans3.C24_direction", "VecGeom.Trans3.C24_closed", "VecGeom.Trans3.C24_assoc", "VecGeom.Trans3.C24_identity", "VecGeom.Trans3.C24_translation_flags", "VecGeom.Trans3.C24_setProperties_flags", "VecGeom.Trans3.C24_small_translation_dropped"], "note": ""},
 {"property": "C25", "status": "proved", "theorems": ["VecGeom.Trans3.C25_inverse", "VecGeom.Trans3.C25_inverse_rigid", "VecGeom.Trans3.C25_inverse_flags"], "note": ""},
 {"property": "C26", "status": "partial", "theorems": ["VecGeom.Trans3.C26_rotation_partial", "VecGeom.Trans3.C26_transform_partial", "VecGeom.Trans3.C26_rotation_new", "VecGeom.Trans3.C26_counterexample", "VecGeom.Trans3.C26_code046_counterexample"], "note": "the specialised kernels agree only for the codes listed in the theorem; counterexamples show the others"},
 {"property": "C27", "status": "proved", "theorems": ["VecGeom.Trans3.C27_euler", "VecGeom.Trans3.C27_constructor", "VecGeom.Trans3.C27_phi_sense"], "note": ""},
 {"property": "C28", "status": "proved", "theorems": ["VecGeom.AABB.C28_box_contains_image", "VecGeom.AABB.C28_box_contains_point", "VecGeom.AABB.C28_box_tight", "VecGeom.AABB.C28_placed_extent", "VecGeom.AABB.C28_placed_extent_flag_counterexample"], "note": ""},
 {"property": "C29", "status": "partial", "theorems": ["VecGeom.AABB.C29_slices_cover_partial", "VecGeom.AABB.C29_slice_count", "VecGeom.AABB.C29_off_centre_counterexample"], "note": "holds for extents centred at the local origin; C29_off_centre_counterexample shows it fails otherwise"},
 {"property": "C30", "status": "proved", "theorems": ["VecGeom.AABB.C30_interval", "VecGeom.AABB.C30_never_misses", "VecGeom.AABB.C30_never_misses_true_ray", "VecGeom.AABB.C30_distance", "VecGeom.AABB.C30_accept_sound", "VecGeom.AABB.C30_cached_kernel2", "VecGeom.AABB.C30_cached_kernel2_sound", "VecGeom.AABB.C30_cached_kernels", "VecGeom.AABB.C30_approach_solid", "VecGeom.AABB.C30_line_test"], "note": ""},
 {"property": "C31", "status": "proved", "theorems": ["VecGeom.AABB.C31_contains", "VecGeom.AABB.C31_contains_kernel", "VecGeom.AABB.C31_safety_lower_bound", "VecGeom.AABB.C31_safety_sign", "VecGeom.AABB.C31_safety_inside", "VecGeom.AABB.C31_safety_sqr_outside", "VecGeom.AABB.C31_safety_sqr_inside", "VecGeom.AABB.C31_safety_range", "VecGeom.AABB.C31_expand"], "note": ""},
 {"property": "C32", "status": "proved", "theorems": ["VecGeom.BVH.C32_requested_depth", "VecGeom.BVH.C32_default_depth", "VecGeom.BVH.C32_depth_limit_counterexample", "VecGeom.BVH.C32_partition", "VecGeom.BVH.C32_node_boxes", "VecGeom.BVH.C32_sorter_strict_weak", "VecGeom.BVH.C32_balance_term_constant", "VecGeom.BVH.C32_sweep_areas"], "note": "for depths 0 to 29 (single daughter with default depth: assumes a small result of the undefined conversion of -inf); C32_depth_limit_counterexample: depths 30 to 32, allowed by the documentation, overflow"},
 {"property": "C33", "status": "proved", "theorems": ["VecGeom.BVH.C33_hit", "VecGeom.BVH.C33_hit_placed", "VecGeom.BVH.C33_inside", "VecGeom.BVH.C33_approach"], "note": "for the direction used by the box tests (components moved from zero by 1e-30); C33_hit_placed for the true ray with the margin of the boxes"},
 {"property": "C34", "status": "proved", "theorems": ["VecGeom.BVH.C34_safety", "VecGeom.BVH.C34_lower_bound", "VecGeom.BVH.C34_exhaustive", "VecGeom.BVH.C34_estimator"], "note": ""},
 {"property": "C35", "status": "proved", "theorems": ["VecGeom.BVH.C35_locate", "VecGeom.BVH.C35_locate_unique", "VecGeom.BVH.C35_locate_direction"], "note": ""},
 {"property": "C36", "status": "proved", "theorems": ["VecGeom.BVH.C36_stack_bound", "VecGeom.BVH.C36_pushes", "VecGeom.BVH.C36_depth_entries_counterexample"], "note": ""},
 {"property": "C37", "status": "proved", "theorems": ["VecGeom.Hybrid.C37_partition", "VecGeom.Hybrid.C37_lanes"], "note": ""},
 {"property": "C38", "status": "partial", "theorems": ["VecGeom.Hybrid.C38_containing", "VecGeom.Hybrid.C38_complete", "VecGeom.Hybrid.C38_overflow_counterexample"], "note": "complete for at most 20000 candidates; C38_overflow_counterexample: more candidates overflow the stack array"},
 {"property": "C39", "status": "partial", "theorems": ["VecGeom.Hybrid.C39_sort", "VecGeom.Hybrid.C39_early_exit", "VecGeom.Hybrid.C39_hit", "VecGeom.Hybrid.C39_hit_placed", "VecGeom.Hybrid.C39_flat_hit", "VecGeom.Hybrid.C39_flat_parallel_counterexample"], "note": "hybrid search for up to 20000 daughters, flat search for up to 2000 daughters and directions without zero components (C39_flat_parallel_counterexample: division by zero otherwise)"},
 {"property": "C40", "status": "proved", "theorems": ["VecGeom.Nav.C40_locate", "VecGeom.Nav.C40_contains", "VecGeom.Nav.C40_unique", "VecGeom.Nav.C40_no_locator_counterexample"], "note": "for volumes with the default level locators (what every constructor sets); C40_no_locator_counterexample: without locators the search stops one level down"},
 {"property": "C41", "status": "proved", "theorems": ["VecGeom.Nav.C41_relocate", "VecGeom.Nav.C41_force_different", "VecGeom.Nav.C41_force_same", "VecGeom.Nav.C41_shared_placement_counterexample"], "note": "RelocatePointFromPath proved outright. RelocatePointFromPathForceDifferent: exact result in C41_force_different, equal to locating from the top if the volume left contains the point nowhere (C41_force_same); C41_shared_placement_counterexample otherwise"},
 {"property": "C42", "status": "partial", "theorems": ["VecGeom.Nav.C42_prepare", "VecGeom.Nav.C42_escape", "VecGeom.Nav.C42_escape_world_counterexample", "VecGeom.Nav.C42_escape_limit_counterexample", "VecGeom.Nav.C42_nearest", "VecGeom.Nav.C42_step", "VecGeom.Nav.C42_safety_step", "VecGeom.Nav.C42_safety_negative_counterexample"], "note": "holds unless the geometry reports an infinite distance; then the step can exceed the limit (C42_escape_limit_counterexample) and a state holding only the world is a null dereference (C42_escape_world_counterexample). The variant returning the safety can return a negative step (C42_safety_negative_counterexample)"},
 {"property": "C43", "status": "proved", "theorems": ["VecGeom.BoxSolid.C43_contains", "VecGeom.BoxSolid.C43_inside", "VecGeom.BoxSolid.C43_outside", "VecGeom.BoxSolid.C43_generic_kernel", "VecGeom.BoxSolid.C43_distance_in", "VecGeom.BoxSolid.C43_distance_in_complete", "VecGeom.BoxSolid.C43_distance_in_true_ray", "VecGeom.BoxSolid.C43_distance_out", "VecGeom.BoxSolid.C43_distance_out_pos", "VecGeom.BoxSolid.C43_distance_out_wrong_side", "VecGeom.BoxSolid.C43_in_then_out", "VecGeom.BoxSolid.C43_distance_out_negative_counterexample", "VecGeom.BoxSolid.C43_safety_in", "VecGeom.BoxSolid.C43_safety_in_sign", "VecGeom.BoxSolid.C43_safety_out", "VecGeom.BoxSolid.C43_safeties_opposite", "VecGeom.BoxSolid.C43_normal_unit", "VecGeom.BoxSolid.C43_normal_outward", "VecGeom.BoxSolid.C43_normal_face", "VecGeom.BoxSolid.C43_normal_far_counterexample", "VecGeom.BoxSolid.C43_sample", "VecGeom.BoxSolid.C43_sample_faces", "VecGeom.BoxSolid.C43_extent"], "note": "for the direction with components moved from zero by 1e-30 (C43_distance_in_true_ray for the true ray) and up to half the tolerance; C43_distance_out_negative_counterexample and C43_normal_far_counterexample show what fails in the tolerance band and for the valid flag"},
 {"property": "C44", "status": "proved", "theorems": ["VecGeom.Orb.C44_contains", "VecGeom.Orb.C44_inside", "VecGeom.Orb.C44_tiny_radius_counterexample", "VecGeom.Orb.C44_distance_in", "VecGeom.Orb.C44_distance_in_miss", "VecGeom.Orb.C44_distance_in_surface", "VecGeom.Orb.C44_distance_in_wrong_side", "VecGeom.Orb.C44_distance_in_tangent_counterexample", "VecGeom.Orb.C44_distance_out", "VecGeom.Orb.C44_distance_out_surface", "VecGeom.Orb.C44_distance_out_wrong_side", "VecGeom.Orb.C44_distance_out_tangent_counterexample", "VecGeom.Orb.C44_safety_in", "VecGeom.Orb.C44_safety_surface", "VecGeom.Orb.C44_safety_out", "VecGeom.Orb.C44_normal", "VecGeom.Orb.C44_sample", "VecGeom.Orb.C44_sample_onto", "VecGeom.Orb.C44_extent"], "note": "for radii not below the tolerance; the tangential cases inside the tolerance band are wrong (counterexample theorems)"},
 {"property": "C45", "status": "proved", "theorems": ["VecGeom.Boolean.C45_contains", "VecGeom.Boolean.C45_tree", "VecGeom.Boolean.C45_classification", "VecGeom.Boolean.C45_exact", "VecGeom.Boolean.C45_tree_classification", "VecGeom.Boolean.C45_union_edge_counterexample", "VecGeom.Boolean.C45_subtraction_face_counterexample"], "note": "membership exact for arbitrary trees; classification sound for trees of unions and exact away from common surfaces; C45_union_edge_counterexample and C45_subtraction_face_counterexample show what happens on common surfaces"},
 {"property": "C46", "status": "partial", "theorems": ["VecGeom.Boolean.C46_moved_twice", "VecGeom.Boolean.C46_extent_partial", "VecGeom.Boolean.C46_counterexample"], "note": "holds for constituents that are not moved; C46_moved_twice gives the extent computed in general, C46_counterexample shows for all three operations that it misses moved constituents"},
 {"property": "C47", "status": "partial", "theorems": ["VecGeom.Boolean.C47_safety_in", "VecGeom.Boolean.C47_safety_out_partial", "VecGeom.Boolean.C47_tree_partial", "VecGeom.Boolean.C47_left_moved_counterexample"], "note": "safety to enter proved; safety to leave for left constituents that are not moved, C47_left_moved_counterexample otherwise"},
 {"property": "C48", "status": "proved", "theorems": ["VecGeom.Boolean.C48_contains", "VecGeom.Boolean.C48_leaves", "VecGeom.Boolean.C48_result", "VecGeom.Boolean.C48_add", "VecGeom.Boolean.C48_count", "VecGeom.Boolean.C48_zero_counterexample"], "note": "for thresholds of at least one; C48_zero_counterexample: the threshold zero dereferences null for every volume. Shared unplaced volumes are modelled as copies"},
 {"property": "C49", "status": "partial", "theorems": ["VecGeom.Scaled.C49_roundtrip", "VecGeom.Scaled.C49_contains", "VecGeom.Scaled.C49_classification", "VecGeom.Scaled.C49_safety_in", "VecGeom.Scaled.C49_safety_out_partial", "VecGeom.Scaled.C49_transform_safety", "VecGeom.Scaled.C49_distance_in", "VecGeom.Scaled.C49_distance_out", "VecGeom.Scaled.C49_entry", "VecGeom.Scaled.C49_exit_partial", "VecGeom.Scaled.C49_normal", "VecGeom.Scaled.C49_normal_roundtrip", "VecGeom.Scaled.C49_normal_invalid", "VecGeom.Scaled.C49_extent_partial", "VecGeom.Scaled.C49_extent_counterexample", "VecGeom.Scaled.C49_capacity_partial", "VecGeom.Scaled.C49_capacity_counterexample", "VecGeom.Scaled.C49_moved_counterexample"], "note": "membership, classification, distances and the safety to enter for all nonzero scales and placements; leaving only for a placed volume that is not moved (C49_moved_counterexample); extent and capacity only for positive scales (C49_extent_counterexample, C49_capacity_counterexample)"},
 {"property": "C50", "status": "proved", "theorems": ["VecGeom.Tet.C50_hull", "VecGeom.Tet.C50_degenerate_counterexample", "VecGeom.Tet.C50_contains", "VecGeom.Tet.C50_contains_hull", "VecGeom.Tet.C50_inside", "VecGeom.Tet.C50_inside_hull", "VecGeom.Tet.C50_safety_in", "VecGeom.Tet.C50_safety_out", "VecGeom.Tet.C50_safety_sharp", "VecGeom.Tet.C50_entry", "VecGeom.Tet.C50_entry_found", "VecGeom.Tet.C50_entry_hit", "VecGeom.Tet.C50_entry_negative", "VecGeom.Tet.C50_exit", "VecGeom.Tet.C50_exit_hit", "VecGeom.Tet.C50_exit_wrong_side", "VecGeom.Tet.C50_exit_negative_counterexample", "VecGeom.Tet.C50_surface_test_dead"], "note": "from points within the tolerance outside a face the distance to leave may be negative (C50_exit_negative_counterexample); degenerate corners are accepted (C50_degenerate_counterexample)"},
 {"property": "C51", "status": "proved", "theorems": ["VecGeom.NavPath.C51_relativePath"], "note": ""},
 {"property": "C52", "status": "proved", "theorems": ["VecGeom.BitSet.C52_set", "VecGeom.BitSet.C52_get", "VecGeom.BitSet.C52_roundtrip", "VecGeom.BitSet.C52_little_endian"], "note": ""},
 {"property": "C53", "status": "partial", "theorems": ["VecGeom.BitSet.C53_copy", "VecGeom.BitSet.C53_assign", "VecGeom.BitSet.C53_assign_truncates", "VecGeom.BitSet.C53_compact_partial", "VecGeom.BitSet.C53_compact_overflow"], "note": "compact copies that drop more than three bytes overflow the allocation (C53_compact_overflow); assignment to a smaller set leaves an unreadable tail (C53_assign_truncates)"},
 {"property": "C54", "status": "proved", "theorems": ["VecGeom.Voxel.C54_mark_exact", "VecGeom.Voxel.C54_mark_complete"], "note": ""},
 {"property": "C55", "status": "proved", "theorems": ["VecGeom.Voxel.C55_tasks_partition", "VecGeom.Voxel.C55_tasks_in_range", "VecGeom.Voxel.C55_schedule_independent"], "note": ""},
 {"property": "C56", "status": "proved", "theorems": ["VecGeom.Voxel.C56_locate_exhaustive", "VecGeom.Voxel.C56_locate_correct", "VecGeom.Voxel.C56_no_tasks"], "note": ""},
 {"property": "C57", "status": "partial", "theorems": ["VecGeom.Registry.C57_index_to_volume_partial", "VecGeom.Registry.C57_volume_to_index_partial", "VecGeom.Registry.C57_compacted_index_zero", "VecGeom.Registry.C57_counterexample", "VecGeom.Registry.C57_unknown_index"], "note": "holds for the original addresses only; the address a volume has after closing converts to index 0 (C57_compacted_index_zero), and converting an unknown index registers a null volume (C57_unknown_index)"},
 {"property": "C58", "status": "partial", "theorems": ["VecGeom.BoxSolid.C58_box_partial", "VecGeom.BoxSolid.C58_box_counterexample", "VecGeom.Orb.C58_orb_partial", "VecGeom.Orb.C58_orb_counterexample"], "note": "the setters of box and orb leave the cached bounding box stale (counterexample theorems); right after construction, and exactly when the dimensions equal those of the construction"},
 {"property": "C59", "status": "proved", "theorems": ["VecGeom.C59_box_capacity", "VecGeom.C59_orb_capacity", "VecGeom.Para.C59_para_capacity", "VecGeom.Tet.C59_tet_capacity", "VecGeom.Trd.C59_trd_capacity"], "note": ""},
 {"property": "C60", "status": "partial", "theorems": ["VecGeom.Hybrid.C60_hybrid", "VecGeom.Hybrid.C60_flat", "VecGeom.Hybrid.C60_overflow_counterexample"], "note": "for at most 2000 daughters; C60_overflow_counterexample: the hybrid work space overflows beyond that"},
 {"property": "C61", "status": "proved", "theorems": ["VecGeom.Hybrid.C61_first", "VecGeom.Hybrid.C61_same_as_linear"], "note": ""},
 {"property": "C62", "status": "proved", "theorems": ["VecGeom.Nav.C62_simple", "VecGeom.Nav.C62_safe", "VecGeom.Nav.C62_daughters"], "note": ""},
 {"property": "C63", "status": "partial", "theorems": ["VecGeom.Boolean.C63_union_in", "VecGeom.Boolean.C63_union_in_attained", "VecGeom.Boolean.C63_intersection_out_partial", "VecGeom.Boolean.C63_subtraction_out", "VecGeom.Boolean.C63_out_attained", "VecGeom.Boolean.C63_union_out", "VecGeom.Boolean.C63_union_out_end", "VecGeom.Boolean.C63_intersection_in", "VecGeom.Boolean.C63_intersection_in_end", "VecGeom.Boolean.C63_subtraction_in", "VecGeom.Boolean.C63_subtraction_in_offset", "VecGeom.Boolean.C63_subtraction_in_counterexample", "VecGeom.Boolean.C63_left_moved_counterexample"], "note": "DistanceToOut of the intersection only for left constituents that are not moved (C63_left_moved_counterexample); the distance to enter a difference is too long by the push (C63_subtraction_in_counterexample)"},
 {"property": "C64", "status": "partial", "theorems": ["VecGeom.Tet.C64_normal_face", "VecGeom.Tet.C64_normal_partial", "VecGeom.Tet.C64_normal_counterexample", "VecGeom.Tet.C64_normal_far", "VecGeom.Tet.C64_extent", "VecGeom.Tet.C64_bbox_counterexample", "VecGeom.Tet.C64_sample", "VecGeom.Tet.C64_mesh", "VecGeom.Tet.C64_area"], "note": "valid normals are not zero and not longer than one, but not always unit vectors (C64_normal_counterexample); the bounding box is not computed by the constructor from arrays (C64_bbox_counterexample); everything else holds"},
 {"property": "C65", "status": "partial", "theorems": ["VecGeom.Boolean.C65_choice", "VecGeom.Boolean.C65_unit", "VecGeom.Boolean.C65_surface_partial", "VecGeom.Boolean.C65_outward_partial", "VecGeom.Boolean.C65_counterexample"], "note": "choice and unit length proved for all trees; the right constituent and the outward direction proved for points on the surface of one constituent whose reported values hang together; counterexample for a union with an empty constituent"},
 {"property": "C66", "status": "proved", "theorems": ["VecGeom.Para.C66_contains", "VecGeom.Para.C66_inside", "VecGeom.Para.C66_outside", "VecGeom.Para.C66_never_wrong", "VecGeom.Para.C66_safety_in", "VecGeom.Para.C66_safety_out", "VecGeom.Para.C66_safeties_opposite", "VecGeom.Para.C66_followed", "VecGeom.Para.C66_distance_in", "VecGeom.Para.C66_distance_in_complete", "VecGeom.Para.C66_distance_out", "VecGeom.Para.C66_distance_out_pos", "VecGeom.Para.C66_distance_out_wrong_side"], "note": ""},
 {"property": "C67", "status": "partial", "theorems": ["VecGeom.Para.C67_caches", "VecGeom.Para.C67_area_partial", "VecGeom.Para.C67_area_counterexample", "VecGeom.Para.C67_extent", "VecGeom.Para.C67_bbox_partial", "VecGeom.Para.C67_bbox_counterexample", "VecGeom.Para.C67_sample", "VecGeom.Para.C67_sample_all", "VecGeom.Para.C67_mesh_counterexample", "VecGeom.Para.C67_mesh_box_counterexample", "VecGeom.Para.C67_setters", "VecGeom.Para.C67_normal_valid", "VecGeom.Para.C67_normal_face", "VecGeom.Para.C67_normal_outward", "VecGeom.Para.C67_normal_invalid", "VecGeom.Para.C67_normal_far_counterexample", "VecGeom.Para.C67_normal_unit_counterexample"], "note": "normals and scale factors, extent, sampling, outward direction proved; the code violates the claim for areas after SetDimensions, bounding box after setters, length of the normal at edges, flag far from the solid, mesh: counterexamples proved"},
 {"property": "C68", "status": "partial", "theorems": ["VecGeom.Trd.C68_contains", "VecGeom.Trd.C68_never_wrong", "VecGeom.Trd.C68_classify_partial", "VecGeom.Trd.C68_safetyToIn", "VecGeom.Trd.C68_safetyToIn_sign", "VecGeom.Trd.C68_safetyToOut", "VecGeom.Trd.C68_safetyToOut_sign", "VecGeom.Trd.C68_classify_counterexample", "VecGeom.Trd.C68_setter_counterexample"], "note": "membership, one-sided classification and safeties proved for all histories that fit the specialisation; width of the tolerance band proved for faces along x and z, with counterexample along y; counterexample for y setters on Trd1"},
 {"property": "C69", "status": "partial", "theorems": ["VecGeom.Trd.C69_in_inside", "VecGeom.Trd.C69_in_hit", "VecGeom.Trd.C69_in_before", "VecGeom.Trd.C69_in_found", "VecGeom.Trd.C69_in_nonneg_partial", "VecGeom.Trd.C69_out_wrong_side", "VecGeom.Trd.C69_out_nonneg", "VecGeom.Trd.C69_out_hit", "VecGeom.Trd.C69_out_before", "VecGeom.Trd.C69_out_after", "VecGeom.Trd.C69_out_found_partial", "VecGeom.Trd.C69_in_negative_counterexample", "VecGeom.Trd.C69_out_negative_counterexample", "VecGeom.Trd.C69_out_edge_counterexample", "VecGeom.Trd.C69_in_edge_counterexample"], "note": "hit, no point passed over, completeness up to rays within kTiny of an edge proved; counterexamples for small negative distances and rays through edges"},
 {"property": "C70", "status": "partial", "theorems": ["VecGeom.Trd.C70_parameters", "VecGeom.Trd.C70_face_areas", "VecGeom.Trd.C70_area_partial", "VecGeom.Trd.C70_area_counterexample", "VecGeom.Trd.C70_triangle_areas", "VecGeom.Trd.C70_choose", "VecGeom.Trd.C70_sample", "VecGeom.Trd.C70_extent", "VecGeom.Trd.C70_bbox_counterexample", "VecGeom.Trd.C70_mesh_closed", "VecGeom.Trd.C70_mesh_outward", "VecGeom.Trd.C70_factory", "VecGeom.Trd.C70_normal_valid", "VecGeom.Trd.C70_normal_face", "VecGeom.Trd.C70_normal_outward"], "note": "parameters, normals, face areas, sampling, extent, mesh and factory proved; the code violates the claim for SurfaceArea and for the bounding box after setters: counterexamples proved"},
 {"property": "C71", "status": "partial", "theorems": ["VecGeom.Container.C71_soa_partial", "VecGeom.Container.C71_self_counterexample", "VecGeom.Container.C71_empty_counterexample"], "note": "proved for all programs without self-assignment and without assignment from an empty container with memory; both excluded cases have counterexamples"},
 {"property": "C72", "status": "partial", "theorems": ["VecGeom.Container.C72_aos_partial", "VecGeom.Container.C72_self_counterexample"], "note": "proved for all programs without self-assignment, which has a counterexample"},
 {"property": "C73", "status": "partial", "theorems": ["VecGeom.Container.C73_roundtrip", "VecGeom.Container.C73_larger", "VecGeom.Container.C73_smaller_counterexample"], "note": "same and larger capacities proved; counterexample for smaller capacities"},
 {"property": "C74", "status": "proved", "theorems": ["VecGeom.RobinHood.C74_map", "VecGeom.RobinHood.C74_sweep_twice_counterexample"], "note": "all hash functions and programs; exceptions end the program. Erasing through iterators sees every entry at least once (counterexample for exactly once)"},
 {"property": "C75", "status": "proved", "theorems": ["VecGeom.RobinHood.C75_no_exception", "VecGeom.RobinHood.C75_few_insertions"], "note": "also as a corollary that only counts insertions"},
 {"property": "C76", "status": "proved", "theorems": ["VecGeom.C76_contains", "VecGeom.C76_inside", "VecGeom.C76_safety", "VecGeom.C76_distance", "VecGeom.C76_setters_counterexample"], "note": "for constructed sectors; the angle setters do not update the planes (counterexample)"},
 {"property": "C77", "status": "proved", "theorems": ["VecGeom.Tube.C77_factory", "VecGeom.Tube.C77_contains", "VecGeom.Tube.C77_inside", "VecGeom.Tube.C77_thin_bore_counterexample"], "note": "classification for radii above the tolerance; counterexample below it"},
 {"property": "C78", "status": "proved", "theorems": ["VecGeom.Tube.C78_safety_in", "VecGeom.Tube.C78_safety_out"], "note": ""},
 {"property": "C79", "status": "partial", "theorems": ["VecGeom.Tube.C79_distance_out_partial", "VecGeom.Tube.C79_outside", "VecGeom.Tube.C79_pi_counterexample", "VecGeom.Tube.C79_pi_negative_counterexample", "VecGeom.Tube.C79_lid_counterexample", "VecGeom.Tube.C79_behind_plane_counterexample"], "note": "proved for every type but openings of exactly pi, where the code is wrong; the lower bound for openings above pi needs the point not to be within the tolerance behind the continuation of a face (counterexamples)"},
 {"property": "C80", "status": "partial", "theorems": ["VecGeom.Tube.C80_distance_in_sound", "VecGeom.Tube.C80_inside", "VecGeom.Tube.C80_distance_in_complete_partial", "VecGeom.Tube.C80_lid_counterexample", "VecGeom.Tube.C80_bore_counterexample", "VecGeom.Tube.C80_axis_counterexample", "VecGeom.Tube.C80_face_counterexample"], "note": "soundness for all tubes; completeness for tubes without sector and points not in the open interior; it is false within the tolerance and for rays through the edge of a solid sector (counterexamples)"},
 {"property": "C81", "status": "proved", "theorems": ["VecGeom.Tube.C81_extent", "VecGeom.Tube.C81_sample", "VecGeom.Tube.C81_convex"], "note": ""},
 {"property": "C82", "status": "proved", "theorems": ["VecGeom.Tube.C82_capacity", "VecGeom.Tube.C82_areas"], "note": "real arithmetic"},
 {"property": "C83", "status": "partial", "theorems": ["VecGeom.Tube.C83_setters", "VecGeom.Tube.C83_setters_counterexample"], "note": "proved for the radii and the half length; false for the angles, which leave the phi wedge stale (counterexample)"},
 {"property": "C84", "status": "partial", "theorems": ["VecGeom.Tube.C84_normal", "VecGeom.Tube.C84_normal_counterexample"], "note": "proved on points of exactly one face; unit length fails on the axis of a half tube (counterexample)"},
 {"property": "C85", "status": "proved", "theorems": ["VecGeom.EllTube.C85_inside", "VecGeom.EllTube.C85_meaning"], "note": "real arithmetic"},
 {"property": "C86", "status": "proved", "theorems": ["VecGeom.EllTube.C86_safety"], "note": "real arithmetic"},
 {"property": "C87", "status": "partial", "theorems": ["VecGeom.EllTube.C87_distance_out_partial", "VecGeom.EllTube.C87_outside", "VecGeom.EllTube.C87_distance_out_counterexample", "VecGeom.EllTube.C87_flat_counterexample"], "note": "proved unless the direction is almost but not quite parallel to the axis (counterexamples)"},
 {"property": "C88", "status": "partial", "theorems": ["VecGeom.EllTube.C88_sound_partial", "VecGeom.EllTube.C88_hit_partial", "VecGeom.EllTube.C88_distance_in_counterexample"], "note": "proved unless the direction is almost but not quite parallel to the axis (counterexample); hits for smaller semi-axes up to 10^6 and rays up to 10^20"},
 {"property": "C89", "status": "partial", "theorems": ["VecGeom.EllTube.C89_capacity", "VecGeom.EllTube.C89_extent", "VecGeom.EllTube.C89_setters_partial", "VecGeom.EllTube.C89_parameters_counterexample", "VecGeom.EllTube.C89_sample"], "note": "all parts proved except that the half length is not checked (counterexample)"},
 {"property": "C90", "status": "proved", "theorems": ["VecGeom.EllTube.C90_normal"], "note": "real arithmetic; slack for the lateral surface is scaled by the ratio of the semi-axes"},
 {"property": "C91", "status": "proved", "theorems": ["VecGeom.EllTube.C91_accurate", "VecGeom.EllTube.C91_surface_accurate", "VecGeom.EllTube.C91_perimeter", "VecGeom.EllTube.C91_surface"], "note": "termination, symmetries and the bound for the difference from the arc length"},
 {"property": "C92", "status": "proved", "theorems": ["VecGeom.Polygon.C92_contains", "VecGeom.Polygon.C92_lanes"], "note": "real arithmetic"},
 {"property": "C93", "status": "proved", "theorems": ["VecGeom.Polygon.C93_init"], "note": "real arithmetic; extent for coordinates up to kInfLength"},
 {"property": "C94", "status": "proved", "theorems": ["VecGeom.Polygon.C94_distance_to_edges"], "note": "real arithmetic"},
 {"property": "C95", "status": "partial", "theorems": ["VecGeom.Polygon.C95_contains", "VecGeom.Polygon.C95_convex_partial", "VecGeom.Polygon.C95_flag", "VecGeom.Polygon.C95_flag_counterexample", "VecGeom.Polygon.C95_lines_counterexample"], "note": "exact if no coefficient is set to 0, within 1e-9(|x|+|y|+1) otherwise (counterexample); stars that cross themselves are reported as convex (counterexample)"},
 {"property": "C96", "status": "partial", "theorems": ["VecGeom.SExtru.C96_inside_counterexample", "VecGeom.SExtru.C96_contains", "VecGeom.SExtru.C96_inside_concave", "VecGeom.SExtru.C96_inside_convex_partial"], "note": "real arithmetic; not convex: off the boundary; convex: strictly, no coefficient set to 0, not exactly the tolerance beyond a plane (counterexample)"},
 {"property": "C97", "status": "partial", "theorems": ["VecGeom.SExtru.C97_safety_concave", "VecGeom.SExtru.C97_safety_convex_partial", "VecGeom.SExtru.C97_sign_counterexample"], "note": "convex: strictly and no coefficient set to 0; not convex: no statement on the sign (counterexample)"},
 {"property": "C98", "status": "partial", "theorems": ["VecGeom.SExtru.C98_out_concave_sound", "VecGeom.SExtru.C98_out_concave_complete", "VecGeom.SExtru.C98_out_convex_partial", "VecGeom.SExtru.C98_out_convex_counterexample"], "note": "convex: planes symmetric about 0 (counterexample otherwise); not convex: edges crossed at a rate of at least the tolerance, distances up to 1e11"},
 {"property": "C99", "status": "partial", "theorems": ["VecGeom.SExtru.C99_in_concave_sound", "VecGeom.SExtru.C99_in_concave_complete", "VecGeom.SExtru.C99_in_convex_counterexample", "VecGeom.SExtru.C99_in_concave_counterexample", "VecGeom.SExtru.C99_in_convex_sound", "VecGeom.SExtru.C99_in_convex_complete_partial"], "note": "convex: no slow motion away from a face (counterexample); not convex: negative distances occur (counterexample)"},
 {"property": "C100", "status": "partial", "theorems": ["VecGeom.SExtru.C100_extent_capacity", "VecGeom.SExtru.C100_surface_area_counterexample"], "note": "the surface area is wrong for every polygon (counterexample)"},
 {"property": "C101", "status": "partial", "theorems": ["VecGeom.SExtru.C101_normal_partial"], "note": "no coefficient set to 0; points within 1e15"},
 {"property": "C102", "status": "partial", "theorems": ["VecGeom.Ellipsoid.C102_inside", "VecGeom.Ellipsoid.C102_meaning", "VecGeom.Ellipsoid.C102_tolerance_counterexample"], "note": "real arithmetic; the layer is thicker than the tolerance along the longer axes (counterexample)"},
 {"property": "C103", "status": "proved", "theorems": ["VecGeom.Ellipsoid.C103_safety"], "note": "real arithmetic"},
 {"property": "C104", "status": "proved", "theorems": ["VecGeom.Ellipsoid.C104_distance_out", "VecGeom.Ellipsoid.C104_outside"], "note": "real arithmetic"},
 {"property": "C105", "status": "partial", "theorems": ["VecGeom.Ellipsoid.C105_sound", "VecGeom.Ellipsoid.C105_hit_partial", "VecGeom.Ellipsoid.C105_hit_counterexample"], "note": "hits only proved if the solid is not too large for the guard of the discriminant (counterexample) and up to a distance of 1e20"},
 {"property": "C106", "status": "partial", "theorems": ["VecGeom.Ellipsoid.C106_capacity", "VecGeom.Ellipsoid.C106_extent", "VecGeom.Ellipsoid.C106_parameters_partial", "VecGeom.Ellipsoid.C106_axis_counterexample", "VecGeom.Ellipsoid.C106_setSemiAxes_counterexample", "VecGeom.Ellipsoid.C106_sample", "VecGeom.Ellipsoid.C106_mesh_partial", "VecGeom.Ellipsoid.C106_mesh_counterexample"], "note": "semi-axis in z not checked, SetSemiAxes keeps old cuts, mesh beyond the cuts (counterexamples)"},
 {"property": "C107", "status": "partial", "theorems": ["VecGeom.Ellipsoid.C107_outward", "VecGeom.Ellipsoid.C107_normal_partial", "VecGeom.Ellipsoid.C107_length_counterexample"], "note": "unit length not on edges beyond the middle (counterexample); semi-axes up to 1e25"},
 {"property": "C108", "status": "proved", "theorems": ["VecGeom.MultiUnion.C108_close", "VecGeom.MultiUnion.C108_neighbours", "VecGeom.MultiUnion.C108_symmetric", "VecGeom.MultiUnion.C108_empty_counterexample"], "note": "a union without components cannot be queried (counterexample, no component exists there)"},
 {"property": "C109", "status": "partial", "theorems": ["VecGeom.MultiUnion.C109_contains", "VecGeom.MultiUnion.C109_contains_region", "VecGeom.MultiUnion.C109_inside", "VecGeom.MultiUnion.C109_classification", "VecGeom.MultiUnion.C109_common_face_counterexample"], "note": "points of common faces are surface although they are inner points of the union (counterexample); everything else proved"},
 {"property": "C110", "status": "partial", "theorems": ["VecGeom.MultiUnion.C110_candidates", "VecGeom.MultiUnion.C110_safety_in_partial", "VecGeom.MultiUnion.C110_safety_in_wrong_side", "VecGeom.MultiUnion.C110_zero_safety_counterexample"], "note": "needs positive safeties of the components (counterexample); real arithmetic"},
 {"property": "C111", "status": "proved", "theorems": ["VecGeom.MultiUnion.C111_safety_out", "VecGeom.MultiUnion.C111_normal"], "note": "normals for points in or on a component; real arithmetic"},
 {"property": "C112", "status": "proved", "theorems": ["VecGeom.MultiUnion.C112_distance_in"], "note": "real arithmetic; up to a distance of 1e27 and the range of the boxes"},
 {"property": "C113", "status": "partial", "theorems": ["VecGeom.MultiUnion.C113_distance_out_partial", "VecGeom.MultiUnion.C113_wrong_side", "VecGeom.MultiUnion.C113_early_end_counterexample"], "note": "early end after a short step (counterexample); real arithmetic"},
 {"property": "C114", "status": "partial", "theorems": ["VecGeom.MultiUnion.C114_extent", "VecGeom.MultiUnion.C114_approach_counterexample"], "note": "Extent proved; ApproachSolid reports a miss for every ray (counterexample)"},
 {"property": "C115", "status": "proved", "theorems": ["VecGeom.Pool.C115_stride", "VecGeom.Pool.C115_states_independent", "VecGeom.Pool.C115_make"], "note": "for depths of at least 0"},
 {"property": "C116", "status": "partial", "theorems": ["VecGeom.Pool.C116_roundtrip", "VecGeom.Pool.C116_answer", "VecGeom.Pool.C116_depth_counterexample", "VecGeom.Pool.C116_short_counterexample"], "note": "other depths are accepted and a short file leaves the pool half overwritten (counterexamples)"},
 {"property": "C117", "status": "partial", "theorems": ["VecGeom.Arr.C117_step", "VecGeom.Arr.C117_run", "VecGeom.Arr.C117_no_leak", "VecGeom.Arr.C117_copy", "VecGeom.Arr.C117_set", "VecGeom.Arr.C117_get", "VecGeom.Arr.C117_self_counterexample"], "note": "self-assignment loses the elements (counterexample); everything else proved"},
 {"property": "C118", "status": "partial", "theorems": ["VecGeom.VoxSafety.C118_safety_partial", "VecGeom.VoxSafety.C118_surface_partial", "VecGeom.VoxSafety.C118_value", "VecGeom.VoxSafety.C118_missed_daughter_counterexample", "VecGeom.VoxSafety.C118_overflow_counterexample"], "note": "proved for the mother, for daughters whose boxes reach the voxel and for daughters nearest at a surface point; others are missed (counterexample)"},
 {"property": "C119", "status": "partial", "theorems": ["VecGeom.CutTube.C119_planes", "VecGeom.CutTube.C119_flat_counterexample", "VecGeom.CutTube.C119_contains", "VecGeom.CutTube.C119_inside_partial", "VecGeom.CutTube.C119_crossed_counterexample"], "note": "Contains exact; Inside up to the tolerance, for planes that do not meet in the tube (counterexample otherwise)"},
 {"property": "C120", "status": "proved", "theorems": ["VecGeom.CutTube.C120_safety_in", "VecGeom.CutTube.C120_safety_out"], "note": ""},
 {"property": "C121", "status": "partial", "theorems": ["VecGeom.CutTube.C121_distance_out_partial", "VecGeom.CutTube.C121_outside"], "note": "the terms from NonZero (1e-30) are in the statement; near the axis the sector is only claimed while the ray stays off it"},
 {"property": "C122", "status": "partial", "theorems": ["VecGeom.CutTube.C122_distance_in_sound_partial", "VecGeom.CutTube.C122_distance_in_complete_partial", "VecGeom.CutTube.C122_far_counterexample", "VecGeom.CutTube.C122_layer_counterexample"], "note": "soundness and completeness (full turn) with the point after the far move not in the thin layer below a plane; counterexamples for the rest"},
 {"property": "C123", "status": "proved", "theorems": ["VecGeom.CutTube.C123_capacity", "VecGeom.CutTube.C123_crossed_counterexample", "VecGeom.CutTube.C123_areas"], "note": "under the hypothesis that the planes do not cross in the tube; counterexample otherwise"},
 {"property": "C124", "status": "proved", "theorems": ["VecGeom.CutTube.C124_extent"], "note": ""},
 {"property": "C125", "status": "partial", "theorems": ["VecGeom.CutTube.C125_sample", "VecGeom.CutTube.C125_convex", "VecGeom.CutTube.C125_normal_partial", "VecGeom.CutTube.C125_normal_counterexample", "VecGeom.CutTube.C125_setters", "VecGeom.CutTube.C125_dz_counterexample", "VecGeom.CutTube.C125_sphi_counterexample", "VecGeom.CutTube.C125_mesh"], "note": "sampling, convexity, radii setters proved; normals partial; SetDz, SetSPhi and the mesh violate the property (counterexamples)"},
 {"property": "C126", "status": "partial", "theorems": ["VecGeom.Refl.C126_image", "VecGeom.Refl.C126_maps", "VecGeom.Refl.C126_daughters", "VecGeom.Refl.C126_place", "VecGeom.Refl.C126_place_plain", "VecGeom.Refl.C126_total", "VecGeom.Refl.C126_late_daughter_counterexample", "VecGeom.Refl.C126_second_mirror_counterexample", "VecGeom.Refl.C126_half_turn_counterexample"], "note": "for one mirror, and placements without a mirror only into volumes not reflected before; counterexamples for the rest"},
 {"property": "C127", "status": "proved", "theorems": ["VecGeom.Trapezoid.C127_contains", "VecGeom.Trapezoid.C127_inside"], "note": ""},
 {"property": "C128", "status": "proved", "theorems": ["VecGeom.Trapezoid.C128_safety_value", "VecGeom.Trapezoid.C128_safety_in", "VecGeom.Trapezoid.C128_safety_out", "VecGeom.Trapezoid.C128_safety_sign"], "note": ""},
 {"property": "C129", "status": "partial", "theorems": ["VecGeom.Trapezoid.C129_glide_counterexample", "VecGeom.Trapezoid.C129_entry", "VecGeom.Trapezoid.C129_entry_found", "VecGeom.Trapezoid.C129_entry_hit", "VecGeom.Trapezoid.C129_entry_negative", "VecGeom.Trapezoid.C129_exit", "VecGeom.Trapezoid.C129_exit_hit", "VecGeom.Trapezoid.C129_exit_wrong_side"], "note": "DistanceToIn without rays that run along a side plane inside by less than half the tolerance; counterexample"},
 {"property": "C130", "status": "partial", "theorems": ["VecGeom.Trapezoid.C130_fresh", "VecGeom.Trapezoid.C130_shape", "VecGeom.Trapezoid.C130_unit", "VecGeom.Trapezoid.C130_solid", "VecGeom.Trapezoid.C130_contains", "VecGeom.Trapezoid.C130_inside", "VecGeom.Trapezoid.C130_safety", "VecGeom.Trapezoid.C130_distance", "VecGeom.Trapezoid.C130_parameters", "VecGeom.Trapezoid.C130_corners", "VecGeom.Trapezoid.C130_angles", "VecGeom.Trapezoid.C130_setters_counterexample", "VecGeom.Trapezoid.C130_twisted", "VecGeom.Trapezoid.C130_coplanarity_counterexample"], "note": "constructors and angle setters; the length setters leave stale planes and twisted faces are accepted: counterexamples"},
 {"property": "C131", "status": "proved", "theorems": ["VecGeom.Trapezoid.C131_specialized", "VecGeom.Trapezoid.C131_corners"], "note": ""},
 {"property": "C132", "status": "proved", "theorems": ["VecGeom.Trapezoid.C132_capacity", "VecGeom.Trapezoid.C132_area"], "note": ""},
 {"property": "C133", "status": "proved", "theorems": ["VecGeom.Trapezoid.C133_corners", "VecGeom.Trapezoid.C133_extent", "VecGeom.Trapezoid.C133_extent_tight", "VecGeom.Trapezoid.C133_sample"], "note": ""},
 {"property": "C134", "status": "partial", "theorems": ["VecGeom.Trapezoid.C134_normal", "VecGeom.Trapezoid.C134_edge", "VecGeom.Trapezoid.C134_normal_counterexample", "VecGeom.Trapezoid.C134_length_counterexample"], "note": "one face higher than the others by half the tolerance, at points not inside by more than half the tolerance; counterexamples for the rest"},
 {"property": "C135", "status": "proved", "theorems": ["VecGeom.Paraboloid.C135_inside", "VecGeom.Paraboloid.C135_meaning", "VecGeom.Paraboloid.C135_near", "VecGeom.Paraboloid.C135_tip_counterexample"], "note": "the closeness bound is C135_near; near the tip it is weak, C135_tip_counterexample shows that this is the code's doing"},
 {"property": "C136", "status": "proved", "theorems": ["VecGeom.Paraboloid.C136_in_counterexample", "VecGeom.Paraboloid.C136_inverted_counterexample", "VecGeom.Paraboloid.C136_in", "VecGeom.Paraboloid.C136_out", "VecGeom.Paraboloid.C136_out_sharp"], "note": "for rlo < rhi as documented; the counterexamples show a negative SafetyToIn just outside the side, and the failure for rlo > rhi, which the constructor accepts"},
 {"property": "C137", "status": "partial", "theorems": ["VecGeom.Paraboloid.C137_never_late", "VecGeom.Paraboloid.C137_found_between", "VecGeom.Paraboloid.C137_found_top", "VecGeom.Paraboloid.C137_found_bottom", "VecGeom.Paraboloid.C137_found_side", "VecGeom.Paraboloid.C137_hit", "VecGeom.Paraboloid.C137_extension_counterexample"], "note": "rays within the stated margins of a rim are left open; counterexample for zero on the continuation of the side beyond a lid"},
 {"property": "C138", "status": "partial", "theorems": ["VecGeom.Paraboloid.C138_never_beyond", "VecGeom.Paraboloid.C138_nonneg", "VecGeom.Paraboloid.C138_sharp", "VecGeom.Paraboloid.C138_wrong_side", "VecGeom.Paraboloid.C138_glide_counterexample"], "note": "sharpness without directions that are almost but not exactly parallel to the axis; counterexample for points on the surface but above the lid"},
 {"property": "C139", "status": "partial", "theorems": ["VecGeom.Paraboloid.C139_lids_partial", "VecGeom.Paraboloid.C139_side_counterexample", "VecGeom.Paraboloid.C139_rim_counterexample"], "note": "true on the lids without the bottom rim; refuted for the side and for the bottom rim"},
 {"property": "C140", "status": "proved", "theorems": ["VecGeom.Paraboloid.C140_capacity", "VecGeom.Paraboloid.C140_area"], "note": ""},
 {"property": "C141", "status": "proved", "theorems": ["VecGeom.Paraboloid.C141_extent", "VecGeom.Paraboloid.C141_sample", "VecGeom.Paraboloid.C141_setters"], "note": ""},
 {"property": "C142", "status": "partial", "theorems": ["VecGeom.Cone.C142_contains", "VecGeom.Cone.C142_contains_given", "VecGeom.Cone.C142_factory", "VecGeom.Cone.C142_inside", "VecGeom.Cone.C142_tip_counterexample"], "note": "Contains and the factory are exact; Inside is proved away from the tip of a bore, where a counterexample is given"},
 {"property": "C143", "status": "partial", "theorems": ["VecGeom.Cone.C143_safetyToIn", "VecGeom.Cone.C143_safetyToIn_sign", "VecGeom.Cone.C143_safetyToOut", "VecGeom.Cone.C143_safetyToOut_sign", "VecGeom.Cone.C143_tip_counterexample"], "note": "both bounds proved for all points; the sign of SafetyToOut fails at the tip of a bore (counterexample)"},
 {"property": "C144", "status": "partial", "theorems": ["VecGeom.Cone.C144_capacity", "VecGeom.Cone.C144_area_partial", "VecGeom.Cone.C144_area_counterexample"], "note": "capacity proved; the area formula is proved to be that of walls and lids only, the faces of a sector are missing"},
 {"property": "C145", "status": "partial", "theorems": ["VecGeom.Cone.C145_extent", "VecGeom.Cone.C145_sample", "VecGeom.Cone.C145_convex", "VecGeom.Cone.C145_setters_partial", "VecGeom.Cone.C145_stale_extent_counterexample", "VecGeom.Cone.C145_extent_counterexample", "VecGeom.Cone.C145_angle_setters_counterexample"], "note": "extent, sampling and convexity proved; setters proved up to the fields they forget, with counterexamples"},
 {"property": "C146", "status": "partial", "theorems": ["VecGeom.Cone.C146_distance_out_partial", "VecGeom.Cone.C146_distance_out_exact", "VecGeom.Cone.C146_tangent_counterexample"], "note": "proved away from tangents on a wall (counterexample), from lines in a lid plane, and for sectors from lines through the axis"},
 {"property": "C147", "status": "partial", "theorems": ["VecGeom.Polycone.C147_contains", "VecGeom.Polycone.C147_make", "VecGeom.Polycone.C147_reversed", "VecGeom.Polycone.C147_index", "VecGeom.Polycone.C147_factory", "VecGeom.Polycone.C147_two_partial", "VecGeom.Polycone.C147_two_counterexample", "VecGeom.Polycone.C147_planes", "VecGeom.Polycone.C147_reset_counterexample", "VecGeom.Polycone.C147_thin_counterexample", "VecGeom.Polycone.C147_repeated_counterexample"], "note": "exact for planes that are equal or further apart than the tolerance; factory product with two planes, reset and close planes fail (counterexamples)"},
 {"property": "C148", "status": "partial", "theorems": ["VecGeom.Polycone.C148_outside", "VecGeom.Polycone.C148_inside_partial", "VecGeom.Polycone.C148_plane_counterexample", "VecGeom.Polycone.C148_near_plane_counterexample"], "note": "outside proved but for tips of bores; inside away from inner planes; counterexamples on and near inner planes"},
 {"property": "C149", "status": "partial", "theorems": ["VecGeom.Polycone.C149_safetyToIn_partial", "VecGeom.Polycone.C149_safetyToOut", "VecGeom.Polycone.C149_safetyToOut_sign", "VecGeom.Polycone.C149_safetyToIn_sign", "VecGeom.Polycone.C149_end_counterexample", "VecGeom.Polycone.C149_walk_counterexample"], "note": "SafetyToOut and both signs proved; SafetyToIn proved for the sections it looks at, with two counterexamples"},
 {"property": "C150", "status": "partial", "theorems": ["VecGeom.Polycone.C150_area_partial", "VecGeom.Polycone.C150_area_sector_counterexample", "VecGeom.Polycone.C150_area_step_counterexample", "VecGeom.Polycone.C150_capacity"], "note": "capacity proved; SurfaceArea is proved to be walls, faces and two full rings, which is the area only for full polycones without steps (counterexamples)"},
 {"property": "C151", "status": "partial", "theorems": ["VecGeom.Polycone.C151_convex_partial", "VecGeom.Polycone.C151_convex_counterexample", "VecGeom.Polycone.C151_extent"], "note": "extent proved; convexity for different heights, with a counterexample for repeated heights"},
 {"property": "C152", "status": "partial", "theorems": ["VecGeom.Hype.C152_inside", "VecGeom.Hype.C152_contains", "VecGeom.Hype.C152_sound", "VecGeom.Hype.C152_close", "VecGeom.Hype.C152_waist_counterexample"], "note": "exact for Contains and sound for Inside; closeness of surface points holds for squared radii only (counterexample at a thin waist)"},
 {"property": "C153", "status": "partial", "theorems": ["VecGeom.Hype.C153_safetyToIn_partial", "VecGeom.Hype.C153_safetyToIn_sign", "VecGeom.Hype.C153_safetyToOut", "VecGeom.Hype.C153_safetyToOut_sign", "VecGeom.Hype.C153_hole_counterexample", "VecGeom.Hype.C153_nan_counterexample", "VecGeom.Hype.C153_waist_counterexample"], "note": "SafetyToOut and both signs proved; SafetyToIn proved where the hole does not matter, with three counterexamples"},
 {"property": "C154", "status": "partial", "theorems": ["VecGeom.Hype.C154_capacity", "VecGeom.Hype.C154_area_partial", "VecGeom.Hype.C154_area_nan_counterexample"], "note": "capacity proved; SurfaceArea is proved to be an overestimate, exact for cylinders only"},
 {"property": "C155", "status": "partial", "theorems": ["VecGeom.Hype.C155_extent", "VecGeom.Hype.C155_convex", "VecGeom.Hype.C155_set_partial", "VecGeom.Hype.C155_bbox_counterexample", "VecGeom.Hype.C155_clone_counterexample", "VecGeom.Hype.C155_factory_partial", "VecGeom.Hype.C155_angle_counterexample", "VecGeom.Hype.C155_tube_counterexample"], "note": "extent and convexity proved; setters without the box, factory without negative angles; counterexamples for box, clone, angles and tube"},
 {"property": "C156", "status": "partial", "theorems": ["VecGeom.Hype.C156_sample", "VecGeom.Hype.C156_weights_partial", "VecGeom.Hype.C156_closed_hole_counterexample"], "note": "points proved to be on the surface; weights with the code's areas; counterexample for a closed waist"},
 {"property": "C157", "status": "partial", "theorems": ["VecGeom.Hype.C157_lid_partial", "VecGeom.Hype.C157_outer_partial", "VecGeom.Hype.C157_inner", "VecGeom.Hype.C157_centre_counterexample"], "note": "inner wall proved; lids away from the centre, outer wall away from edges"},
 {"property": "C158", "status": "partial", "theorems": ["VecGeom.Hype.C158_out_nonneg", "VecGeom.Hype.C158_out_never_beyond_partial", "VecGeom.Hype.C158_out_sharp", "VecGeom.Hype.C158_tangent_counterexample"], "note": "sign and sharpness proved; staying inside for rays not tangent to the wall (counterexample)"},
 {"property": "C159", "status": "partial", "theorems": ["VecGeom.Hype.C159_found_side_partial", "VecGeom.Hype.C159_found_hole_partial", "VecGeom.Hype.C159_found_lid_partial", "VecGeom.Hype.C159_hit", "VecGeom.Hype.C159_extension_counterexample", "VecGeom.Hype.C159_needle_counterexample"], "note": "hit proved; finding the solid away from edges and the squared tolerance, with two counterexamples"},
 {"property": "C160", "status": "proved", "theorems": ["VecGeom.EllCone.C160_parameters", "VecGeom.EllCone.C160_inside", "VecGeom.EllCone.C160_sound", "VecGeom.EllCone.C160_close", "VecGeom.EllCone.C160_shallow"], "note": ""},
 {"property": "C161", "status": "proved", "theorems": ["VecGeom.EllCone.C161_safetyToIn", "VecGeom.EllCone.C161_safetyToOut"], "note": ""},
 {"property": "C162", "status": "proved", "theorems": ["VecGeom.EllCone.C162_capacity", "VecGeom.EllCone.C162_area"], "note": "the area up to the relative error of the perimeter of C91"},
 {"property": "C163", "status": "partial", "theorems": ["VecGeom.EllCone.C163_extent", "VecGeom.EllCone.C163_convex", "VecGeom.EllCone.C163_set_partial", "VecGeom.EllCone.C163_box_counterexample"], "note": "extent and convexity proved; the setters leave the old box (counterexample)"},
 {"property": "C164", "status": "proved", "theorems": ["VecGeom.EllCone.C164_sample", "VecGeom.EllCone.C164_weights", "VecGeom.EllCone.C164_density", "VecGeom.EllCone.C164_height"], "note": ""},
 {"property": "C165", "status": "partial", "theorems": ["VecGeom.EllCone.C165_flag", "VecGeom.EllCone.C165_outward", "VecGeom.EllCone.C165_axis_counterexample"], "note": "proved off the axis; counterexample on the axis"},
 {"property": "C166", "status": "partial", "theorems": ["VecGeom.EllCone.C166_out", "VecGeom.EllCone.C166_out_outside", "VecGeom.EllCone.C166_grazing_counterexample"], "note": "exact for directions that are not nearly parallel to a line of the wall; counterexample for these"},
 {"property": "C167", "status": "partial", "theorems": ["VecGeom.EllCone.C167_found_partial", "VecGeom.EllCone.C167_hit"], "note": "hit proved; finding the solid for rays that neither graze nor scratch the wall and for points deeper than the tolerance"},
 {"property": "C168", "status": "partial", "theorems": ["VecGeom.Sphere.C168_inside_partial", "VecGeom.Sphere.C168_near", "VecGeom.Sphere.C168_deep", "VecGeom.Sphere.C168_axis_counterexample"], "note": "all but: points near the axis of spheres with one pole that reach across the equator, or lower hemispheres, are reported on the surface (counterexample)"},
 {"property": "C169", "status": "proved", "theorems": ["VecGeom.Sphere.C169_safety"], "note": ""},
 {"property": "C170", "status": "proved", "theorems": ["VecGeom.Sphere.C170_capacity"], "note": ""},
 {"property": "C171", "status": "partial", "theorems": ["VecGeom.Sphere.C171_area_partial", "VecGeom.Sphere.C171_shell", "VecGeom.Sphere.C171_cone_counterexample"], "note": "balls and hemispheres with any azimuth range; counterexample for cones"},
 {"property": "C172", "status": "partial", "theorems": ["VecGeom.Sphere.C172_radii", "VecGeom.Sphere.C172_getters", "VecGeom.Sphere.C172_setter_counterexample", "VecGeom.Sphere.C172_clip_counterexample", "VecGeom.Sphere.C172_factory", "VecGeom.Sphere.C172_factory_counterexample"], "note": "radii and getters proved; counterexamples for angles, clipping and factory"},
 {"property": "C173", "status": "proved", "theorems": ["VecGeom.Sphere.C173_extent", "VecGeom.Sphere.C173_convex"], "note": ""},
 {"property": "C174", "status": "partial", "theorems": ["VecGeom.Sphere.C174_sample", "VecGeom.Sphere.C174_weights", "VecGeom.Sphere.C174_flat_counterexample"], "note": "points are on the surface; weights are wrong for cones and flat sides (proved)"},
 {"property": "C175", "status": "partial", "theorems": ["VecGeom.Sphere.C175_in_outside", "VecGeom.Sphere.C175_in_miss", "VecGeom.Sphere.C175_in_hole", "VecGeom.Sphere.C175_out", "VecGeom.Sphere.C175_out_wrong_side", "VecGeom.Sphere.C175_in_wrong_side_counterexample"], "note": "full shells only; wrong side of DistanceToIn fails at the start azimuth (counterexample); sectors are not modelled"},
 {"property": "C176", "status": "partial", "theorems": ["VecGeom.Torus.C176_contains_partial", "VecGeom.Torus.C176_inside", "VecGeom.Torus.C176_contains_counterexample", "VecGeom.Torus.C176_centre_counterexample"], "note": "Inside proved; Contains for full tori, counterexample for sectors; central circle of a solid torus is reported as surface (counterexample)"},
 {"property": "C177", "status": "proved", "theorems": ["VecGeom.Torus.C177_out", "VecGeom.Torus.C177_in", "VecGeom.Torus.C177_exact"], "note": ""},
 {"property": "C178", "status": "partial", "theorems": ["VecGeom.Torus.C178_capacity", "VecGeom.Torus.C178_counterexample"], "note": "ring tori (outer radius at most the radius of the central circle); counterexample otherwise"},
 {"property": "C179", "status": "proved", "theorems": ["VecGeom.Torus.C179_area"], "note": ""},
 {"property": "C180", "status": "partial", "theorems": ["VecGeom.Torus.C180_extent", "VecGeom.Torus.C180_tight", "VecGeom.Torus.C180_convex", "VecGeom.Torus.C180_setters_counterexample"], "note": "extent and convexity proved; counterexample for setters"},
 {"property": "C181", "status": "partial", "theorems": ["VecGeom.Torus.C181_sample_partial", "VecGeom.Torus.C181_full_counterexample", "VecGeom.Torus.C181_uniform_counterexample"], "note": "sectors, and full tori that start at 0; counterexamples otherwise and for uniformity"},
 {"property": "C182", "status": "partial", "theorems": ["VecGeom.Torus.C182_sort", "VecGeom.Torus.C182_cubic", "VecGeom.Torus.C182_quartic_partial", "VecGeom.Torus.C182_threshold_counterexample"], "note": "sorting and cubic proved; quartic if no coefficient is just below a threshold (counterexample) and all solutions are below kInfLength"},
 {"property": "C183", "status": "proved", "theorems": ["VecGeom.Torus.C183_equation"], "note": ""},
 {"property": "C184", "status": "partial", "theorems": ["VecGeom.Torus.C184_touch_counterexample", "VecGeom.Torus.C184_defined", "VecGeom.Torus.C184_out_partial"], "note": "full tori; rays that the thresholds of the solver do not alter and that do not take the approximation for level rays; counterexample for rays that touch the inner tube; sectors are not proved"},
 {"property": "C185", "status": "partial", "theorems": ["VecGeom.Torus.C185_face_counterexample", "VecGeom.Torus.C185_in_partial"], "note": "full tori; points in the bounding tube; rays as in C184; counterexample for sectors"},
 {"property": "C186", "status": "partial", "theorems": ["VecGeom.OBB.C186_oriented", "VecGeom.OBB.C186_symmetric", "VecGeom.OBB.C186_centre_counterexample", "VecGeom.OBB.C186_aligned"], "note": "proved for boxes centred in their frames (as those of UnplacedBox) and for aligned boxes; counterexample for other corners"},
 {"property": "C187", "status": "partial", "theorems": ["VecGeom.Coax.C187_contains", "VecGeom.Coax.C187_inside_first", "VecGeom.Coax.C187_inside", "VecGeom.Coax.C187_safetyToIn", "VecGeom.Coax.C187_safetyToOut", "VecGeom.Coax.C187_safety_sign", "VecGeom.Coax.C187_touching_counterexample"], "note": "containment and bounds of the safeties proved; Inside up to the tolerance and the tips of bores; counterexample: a point where two cones touch is put on the surface"},
 {"property": "C188", "status": "partial", "theorems": ["VecGeom.Coax.C188_capacity_partial", "VecGeom.Coax.C188_unset_counterexample", "VecGeom.Coax.C188_area_one_partial", "VecGeom.Coax.C188_area_counterexample", "VecGeom.Coax.C188_distance_in_partial", "VecGeom.Coax.C188_distance_out_partial", "VecGeom.Coax.C188_touching_counterexample"], "note": "the sum of the struct is the volume if the cones do not overlap; a ray stays in the solid up to DistanceToOut; counterexamples: Capacity, SurfaceArea and Extent of the unplaced volume give nothing, the area misses lids, DistanceToOut ends where cones touch; DistanceToIn is proved to be the least of the distances to the cones, whose own correctness is not proved"},
 {"property": "C189", "status": "partial", "theorems": ["VecGeom.Assembly.C189_extent", "VecGeom.Assembly.C189_contains_partial", "VecGeom.Assembly.C189_terminates", "VecGeom.Assembly.C189_late_counterexample"], "note": "proved for histories in which no assembly gets daughters after it has been placed; counterexample for the others"},
 {"property": "C190", "status": "partial", "theorems": ["VecGeom.Assembly.C190_safetyToIn", "VecGeom.Assembly.C190_distance_partial"], "note": "safety proved for all; distance for histories in which no assembly gets daughters after it has been placed and directions with no component zero (otherwise the box test divides by zero)"},
 {"property": "C191", "status": "partial", "theorems": ["VecGeom.GPoly.C191_ring", "VecGeom.GPoly.C191_contains", "VecGeom.GPoly.C191_safetyToIn_partial", "VecGeom.GPoly.C191_safetyToOut", "VecGeom.GPoly.C191_outside", "VecGeom.GPoly.C191_inside_partial", "VecGeom.GPoly.C191_walk_counterexample", "VecGeom.GPoly.C191_capacity_partial"], "note": "containment, SafetyToOut and the outside answer proved for all; SafetyToIn for sections with no plane between them and a point above; counterexample for the others; capacity proved if the cones of no section overlap"},
 {"property": "C192", "status": "partial", "theorems": ["VecGeom.GPoly.C192_bottom_counterexample", "VecGeom.GPoly.C192_top_counterexample", "VecGeom.GPoly.C192_shift_counterexample", "VecGeom.GPoly.C192_one_partial"], "note": "one section proved; counterexamples with two sections for points on the bottom and the top"},
 {"property": "C193", "status": "partial", "theorems": ["VecGeom.Quad.C193_contains_partial", "VecGeom.Quad.C193_contains_counterexample", "VecGeom.Quad.C193_inside", "VecGeom.Quad.C193_inside_any", "VecGeom.Quad.C193_assign_counterexample", "VecGeom.Quad.C193_set", "VecGeom.Quad.C193_flip"], "note": "convex sets and Inside proved; counterexamples for Contains of sets that are not convex and for assignment"},
 {"property": "C194", "status": "partial", "theorems": ["VecGeom.Quad.C194_distance", "VecGeom.Quad.C194_safety_partial", "VecGeom.Quad.C194_safety_counterexample"], "note": "rays proved; Distance of points proved with the flag inverted, counterexample as it is"},
 {"property": "C195", "status": "proved", "theorems": ["VecGeom.Quad.C195_stays", "VecGeom.Quad.C195_leaves"], "note": "for zMin < zMax (the case zMin = zMax tests the hit instead)"},
 {"property": "C196", "status": "proved", "theorems": ["VecGeom.Quad.C196_segment", "VecGeom.Quad.C196_set", "VecGeom.Quad.C196_distance", "VecGeom.Quad.C196_hit", "VecGeom.Quad.C196_flip"], "note": "for corners in counterclockwise order, further apart than the tolerance, normals without small components that are not zero"},
 {"property": "C197", "status": "proved", "theorems": ["VecGeom.Quad.C197_finite", "VecGeom.Quad.C197_first", "VecGeom.Quad.C197_reaches", "VecGeom.Quad.C197_order_counterexample"], "note": "counterexample shows that the first of the list need not be the nearest; C197_reaches needs an angle of the ray to the plane that is not below t * 1e-20 / tolerance"},
 {"property": "C198", "status": "partial", "theorems": ["VecGeom.Quad.C198_area", "VecGeom.Quad.C198_area_turn", "VecGeom.Quad.C198_area_counterexample", "VecGeom.Quad.C198_on_face", "VecGeom.Quad.C198_all_points", "VecGeom.Quad.C198_uniform_counterexample"], "note": "area, membership and reach proved; counterexample for uniformity"},
 {"property": "C199", "status": "partial", "theorems": ["VecGeom.Phd.C199_segment", "VecGeom.Phd.C199_segment_apart", "VecGeom.Phd.C199_phi_segment", "VecGeom.Phd.C199_contains_partial", "VecGeom.Phd.C199_phi_counterexample", "VecGeom.Phd.C199_border"], "note": "planes further apart than twice the tolerance, or at the same height; phi planes of cutouts below 180 degrees are not looked at (counterexample)"},
 {"property": "C200", "status": "partial", "theorems": ["VecGeom.Phd.C200_inside", "VecGeom.Phd.C200_inside_contains", "VecGeom.Phd.C200_contains_inside_partial", "VecGeom.Phd.C200_border", "VecGeom.Phd.C200_agree_counterexample"], "note": "contained points are not outside without cutout below 180 degrees (counterexample); borders without cutout"},
 {"property": "C201", "status": "proved", "theorems": ["VecGeom.Phd.C201_capacity"], "note": "`Capacity` as computed on the first call; corners whose coordinates are not set to zero by `FixZeroes`; the section is given by the area of its sides"},
 {"property": "C202", "status": "partial", "theorems": ["VecGeom.Phd.C202_area", "VecGeom.Phd.C202_first_counterexample"], "note": "first two and last two planes at different heights (counterexample otherwise)"},
 {"property": "C203", "status": "proved", "theorems": ["VecGeom.Phd.C203_extent", "VecGeom.Phd.C203_tight"], "note": ""},
 {"property": "C204", "status": "partial", "theorems": ["VecGeom.Phd.C204_segment_partial", "VecGeom.Phd.C204_segment_counterexample", "VecGeom.Phd.C204_triangle_counterexample"], "note": "counterexamples; the distance is right only for points across the first end of the segment"},
 {"property": "C205", "status": "partial", "theorems": ["VecGeom.Phd.C205_ends", "VecGeom.Phd.C205_share_counterexample"], "note": "the points are points of the ends; the shares of the two ends are exchanged (counterexample); first two and last two planes at different heights"},
 {"property": "C206", "status": "proved", "theorems": ["VecGeom.Phd.C206_tube", "VecGeom.Phd.C206_tight"], "note": "radii and length; the angles of the tube of a sector are not modelled"},
 {"property": "C207", "status": "partial", "theorems": ["VecGeom.Phd.C207_walls", "VecGeom.Phd.C207_plane"], "note": "polyhedra without a cut in phi; the planes of the outer walls have the points below them that the walls have (planes through the corners with the normal away from the axis); planes of the inner walls are not linked"}
]}
