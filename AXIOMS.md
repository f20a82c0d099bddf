# Axioms each property theorem depends on

Output of `#print axioms` for every theorem named in `MANIFEST.json`.

## none

* C70 `Dgtd.Gmsh.C70_violated_hexahedra`
* C60 `Dgtd.NodalMaps.C60_violated`
* C101 `Dgtd.ProbeFiles.C101_violated_mor`

## propext

* C28 `Dgtd.Sgbc.C28_ends`
* C16 `Dgtd.Gmsh.C16_count`
* C57 `Dgtd.Launch.C57_rcs_meaning`
* C81 `Dgtd.SourceCfg.C81_violated`
* C82 `Dgtd.SourceCfg.C82_three_partial`
* C82 `Dgtd.SourceCfg.C82_violated_long`
* C38 `Dgtd.NodalMaps.C38_rejects`
* C38 `Dgtd.NodalMaps.C38_repeated_vertices`
* C101 `Dgtd.ProbeFiles.C101_violated`
* C104 `Dgtd.ProbeCfg.C104_accepted_partial`
* C104 `Dgtd.ProbeCfg.C104_violated_absent`
* C112 `Dgtd.SgbcInit.C112_violated_exterior`
* C117 `Dgtd.Spectral.C117_absorbing`
* C184 `Dgtd.Renumber.C184_nodal_partial`

## propext, Quot.sound

* C06 `Dgtd.Fields.C06_components_tile`
* C61 `Dgtd.Op.C61_boundaryJump_partial`
* C23 `Dgtd.Sgbc.C23_needs_a_segment`
* C23 `Dgtd.Sgbc.C23_ghost_count`
* C25 `Dgtd.SgbcEvol.C25_needs_commit`
* C29 `Dgtd.SgbcEvol.C29_isolated`
* C29 `Dgtd.SgbcEvol.C29_save_load`
* C66 `Dgtd.SgbcEvol.C66_violated`
* C67 `Dgtd.SgbcEvol.C67_violated`
* C46 `Dgtd.SurfaceFile.C46_header_count`
* C16 `Dgtd.Gmsh.C16_entries`
* C70 `Dgtd.Gmsh.C70_simplices_partial`
* C21 `Dgtd.Config.C21_markers`
* C21 `Dgtd.Config.C21_entry`
* C53 `Dgtd.Launch.C53_result_name`
* C53 `Dgtd.Launch.C53_result_name_iff`
* C57 `Dgtd.Launch.C57_meaning`
* C57 `Dgtd.Launch.C57_composed`
* C57 `Dgtd.Launch.C57_no_arguments`
* C57 `Dgtd.Launch.C57_run_only_json`
* C57 `Dgtd.Launch.C57_rcs_run_only_path`
* C57 `Dgtd.Launch.C57_rcs_total`
* C75 `Dgtd.Launch.C75_own_mesh_partial`
* C32 `Dgtd.Sources.C32_direct_superposes`
* C32 `Dgtd.Sources.C32_nodal`
* C32 `Dgtd.Sources.C32_maxwell_count`
* C33 `Dgtd.Sources.C33_sum`
* C33 `Dgtd.Sources.C33_order`
* C33 `Dgtd.Sources.C33_own_field`
* C33 `Dgtd.Sources.C33_short_centre`
* C82 `Dgtd.SourceCfg.C82_violated_short`
* C35 `Dgtd.SubMesh.C35_add`
* C35 `Dgtd.SubMesh.C35_round_trip`
* C36 `Dgtd.SubMesh.C36_global`
* C36 `Dgtd.SubMesh.C36_rule_plane`
* C85 `Dgtd.SubMesh.C85_chosen`
* C43 `Dgtd.NodalMaps.C43_first_partial`
* C60 `Dgtd.NodalMaps.C60_sub`
* C60 `Dgtd.NodalMaps.C60_restore_partial`
* C90 `Dgtd.Nodal.C90_correction`
* C90 `Dgtd.Nodal.C90_transparent`
* C63 `Dgtd.Movie.C63_first`
* C63 `Dgtd.Movie.C63_max`
* C63 `Dgtd.Movie.C63_min`
* C45 `Dgtd.PoleFit.C45_stops`
* C45 `Dgtd.PoleFit.C45_quality`
* C45 `Dgtd.PoleFit.C45_violated`
* C93 `Dgtd.PoleFit.C93_single_partial`
* C93 `Dgtd.PoleFit.C93_same_material_partial`
* C93 `Dgtd.PoleFit.C93_violated`
* C101 `Dgtd.ProbeFiles.C101_probes_partial`
* C102 `Dgtd.ProbeFiles.C102_inside_partial`
* C102 `Dgtd.ProbeFiles.C102_violated`
* C103 `Dgtd.ProbeCfg.C103_steps_partial`
* C103 `Dgtd.ProbeCfg.C103_saves_partial`
* C103 `Dgtd.ProbeCfg.C103_read_partial`
* C103 `Dgtd.ProbeCfg.C103_default_partial`
* C103 `Dgtd.ProbeCfg.C103_violated_missing`
* C103 `Dgtd.ProbeCfg.C103_violated_zero`
* C104 `Dgtd.ProbeCfg.C104_marker_partial`
* C104 `Dgtd.ProbeCfg.C104_violated_beyond`
* C109 `Dgtd.SgbcInit.C109_violated_repeated`
* C112 `Dgtd.SgbcInit.C112_line_partial`
* C112 `Dgtd.SgbcInit.C112_ends_partial`
* C112 `Dgtd.SgbcInit.C112_violated_numbering`
* C121 `Dgtd.TimeInt.C121_accepted`
* C121 `Dgtd.TimeInt.C121_numbers`
* C130 `Dgtd.Nodal.C130_one_type`
* C130 `Dgtd.Nodal.C130_sizes_partial`
* C130 `Dgtd.Nodal.C130_lines`
* C130 `Dgtd.Nodal.C130_mixed`
* C166 `Dgtd.Nodal.C166_quadrilaterals`
* C166 `Dgtd.Nodal.C166_triangles`
* C166 `Dgtd.Nodal.C166_boxes`
* C180 `Dgtd.SurfaceDirs.C180_violated`
* C184 `Dgtd.Renumber.C184_regions_partial`
* C185 `Dgtd.EntryOrder.C185_incident_partial`
* C185 `Dgtd.Sources.C33_order`

## propext, Classical.choice, Quot.sound

* C07 `Dgtd.TimeLoop.C07_run_reaches_final_time`
* C07 `Dgtd.TimeLoop.C07_negative_step_never_returns`
* C08 `Dgtd.TimeLoop.C08_probe_records`
* C08 `Dgtd.TimeLoop.C08_first_instant_recorded`
* C08 `Dgtd.TimeLoop.C08_last_instant_recorded_partial`
* C08 `Dgtd.TimeLoop.C08_last_instant_missed`
* C09 `Dgtd.TimeLoop.C09_saves_bounds`
* C04 `Dgtd.Csr.C04_merge_is_sum`
* C04 `Dgtd.Csr.C04_no_uninitialised_data`
* C05 `Dgtd.Csr.C05_routes_agree`
* C05 `Dgtd.Csr.C05_order_irrelevant`
* C01 `Dgtd.Op.C01_energy_balance`
* C01 `Dgtd.Op.C01_energy_never_grows`
* C01 `Dgtd.Op.C01_energy_antitone`
* C01 `Dgtd.Op.C01_backward_euler`
* C01 `Dgtd.Op.C01_implicit_midpoint`
* C01 `Dgtd.Op.C01_merged_operator`
* C02 `Dgtd.Op.C02_centred_conserves`
* C02 `Dgtd.Op.C02_energy_constant`
* C02 `Dgtd.Op.C02_implicit_midpoint`
* C03 `Dgtd.Op.C03_operators_agree_partial`
* C03 `Dgtd.Op.C03_conductivity_dropped`
* C06 `Dgtd.Fields.C06_write_isolated`
* C06 `Dgtd.Fields.C06_aggregate_views`
* C06 `Dgtd.Fields.C06_offsets_agree`
* C06 `Dgtd.Fields.C06_initially_zero`
* C61 `Dgtd.Op.C61_zeroNormal`
* C61 `Dgtd.Op.C61_oneNormal`
* C61 `Dgtd.Op.C61_twoNormal`
* C61 `Dgtd.Op.C61_interior0`
* C61 `Dgtd.Op.C61_interior1`
* C61 `Dgtd.Op.C61_interior2`
* C61 `Dgtd.Op.C61_hesthavenFlux`
* C61 `Dgtd.Op.C61_traceJump`
* C61 `Dgtd.Op.C61_totalField_partial`
* C61 `Dgtd.Op.C61_totalField_loses_points`
* C61 `Dgtd.Op.C61_boundaryJump_loses_points`
* C61 `Dgtd.Op.C61_decoupled`
* C61 `Dgtd.Op.C61_sma`
* C61 `Dgtd.Op.C61_totalNormal`
* C61 `Dgtd.Op.C61_totalFlux_partial`
* C61 `Dgtd.Op.C61_totalFlux_loses_points`
* C61 `Dgtd.Op.C61_totalPenalty_partial`
* C61 `Dgtd.Op.C61_totalPenalty_loses_points`
* C62 `Dgtd.Op.C62_no_flux`
* C62 `Dgtd.Op.C62_continuous_fields`
* C13 `Dgtd.Partition.C13_completes`
* C13 `Dgtd.Partition.C13_linked_same_rank`
* C13 `Dgtd.Partition.C13_file`
* C14 `Dgtd.Partition.C14_only_moves_what_it_must`
* C14 `Dgtd.Partition.C14_file`
* C15 `Dgtd.Partition.C15_accounting`
* C15 `Dgtd.Partition.C15_greedy`
* C15 `Dgtd.Partition.C15_balance`
* C23 `Dgtd.Sgbc.C23_elements`
* C23 `Dgtd.Sgbc.C23_layer_vertices`
* C23 `Dgtd.Sgbc.C23_ghost_vertices`
* C23 `Dgtd.Sgbc.C23_vertices_increasing`
* C23 `Dgtd.Sgbc.C23_attributes`
* C23 `Dgtd.Sgbc.C23_interfaces`
* C23 `Dgtd.Sgbc.C23_materials`
* C23 `Dgtd.Sgbc.C23_interface_nodes`
* C23 `Dgtd.Sgbc.C23_empty_layer_vanishes`
* C24 `Dgtd.FaceRotation.C24_is_rotation`
* C24 `Dgtd.FaceRotation.C24_normal_to_axis`
* C24 `Dgtd.FaceRotation.C24_round_trip`
* C24 `Dgtd.FaceRotation.C24_preserves_products`
* C24 `Dgtd.FaceRotation.C24_zero_normal`
* C27 `Dgtd.Sgbc.C27_defined`
* C27 `Dgtd.Sgbc.C27_substeps_cover`
* C27 `Dgtd.Sgbc.C27_fractions`
* C27 `Dgtd.Sgbc.C27_advances_global_step_partial`
* C27 `Dgtd.Sgbc.C27_tiny_substeps_freeze`
* C27 `Dgtd.Sgbc.C27_recommended`
* C28 `Dgtd.Sgbc.C28_ghost_nodes`
* C28 `Dgtd.Sgbc.C28_between`
* C28 `Dgtd.Sgbc.C28_ghosts_from_fields`
* C28 `Dgtd.Sgbc.C28_interpolation_meets_fields`
* C31 `Dgtd.Implicit.C31_never_stale`
* C31 `Dgtd.Implicit.C31_history_independent`
* C31 `Dgtd.Implicit.C31_completes`
* C31 `Dgtd.Implicit.C31_mark_as_first_step`
* C31 `Dgtd.Implicit.C31_integrator`
* C64 `Dgtd.Implicit.C64_always_solvable`
* C64 `Dgtd.Implicit.C64_solves_complete`
* C25 `Dgtd.SgbcEvol.C25_rhs_repeatable`
* C25 `Dgtd.SgbcEvol.C25_step_determined`
* C25 `Dgtd.SgbcEvol.C25_inner_integrator`
* C26 `Dgtd.SgbcEvol.C26_schedule_independent`
* C26 `Dgtd.SgbcEvol.C26_no_deadlock`
* C26 `Dgtd.SgbcEvol.C26_terminates`
* C26 `Dgtd.SgbcEvol.C26_completes`
* C26 `Dgtd.SgbcEvol.C26_stage_and_step`
* C30 `Dgtd.SgbcEvol.C30_scratch_zero`
* C30 `Dgtd.SgbcEvol.C30_explicit_any_scratch`
* C65 `Dgtd.SgbcEvol.C65_other_layers_partial`
* C65 `Dgtd.SgbcEvol.C65_one_face`
* C65 `Dgtd.SgbcEvol.C65_face_flux_partial`
* C65 `Dgtd.SgbcEvol.C65_violated_corner`
* C65 `Dgtd.SgbcEvol.C65_violated_facing`
* C66 `Dgtd.SgbcEvol.C66_interior_acts_partial`
* C67 `Dgtd.SgbcEvol.C67_without_layers_partial`
* C67 `Dgtd.SgbcEvol.C67_violated_witness`
* C46 `Dgtd.SurfaceFile.C46_round_trip`
* C46 `Dgtd.SurfaceFile.C46_reader_terminates`
* C47 `Dgtd.SurfaceFile.C47_exact`
* C47 `Dgtd.SurfaceFile.C47_complete_snapshots_survive_partial`
* C47 `Dgtd.SurfaceFile.C47_violated`
* C37 `Dgtd.Spherical.C37_round_trip`
* C37 `Dgtd.Spherical.C37_round_trip_plane`
* C37 `Dgtd.Spherical.C37_round_trip_back`
* C37 `Dgtd.Spherical.C37_field`
* C37 `Dgtd.Spherical.C37_field_length`
* C48 `Dgtd.Rcs.C48_split`
* C48 `Dgtd.Rcs.C48_far_field`
* C49 `Dgtd.Rcs.C49_filter`
* C49 `Dgtd.Rcs.C49_run`
* C49 `Dgtd.Rcs.C49_error`
* C50 `Dgtd.Rcs.C50_phase_partial`
* C50 `Dgtd.Rcs.C50_violated_origin`
* C51 `Dgtd.Rcs.C51_frame`
* C51 `Dgtd.Rcs.C51_nonneg`
* C52 `Dgtd.Rcs.C52_linear`
* C52 `Dgtd.Rcs.C52_schedule`
* C54 `Dgtd.Rcs.C54_last_wave_partial`
* C54 `Dgtd.Rcs.C54_violated`
* C55 `Dgtd.Rcs.C55_merge_sums_partial`
* C55 `Dgtd.Rcs.C55_violated`
* C56 `Dgtd.Rcs.C56_count`
* C56 `Dgtd.Rcs.C56_values`
* C56 `Dgtd.Rcs.C56_first`
* C56 `Dgtd.Rcs.C56_last`
* C56 `Dgtd.Rcs.C56_inside`
* C56 `Dgtd.Rcs.C56_distinct`
* C56 `Dgtd.Rcs.C56_product`
* C56 `Dgtd.Rcs.C56_product_distinct`
* C68 `Dgtd.Rcs.C68_request_partial`
* C68 `Dgtd.Rcs.C68_repetition_scales`
* C68 `Dgtd.Rcs.C68_violated`
* C68 `Dgtd.Rcs.C68_request_repeats`
* C69 `Dgtd.Rcs.C69_same_intensity_partial`
* C69 `Dgtd.Rcs.C69_violated_2D`
* C69 `Dgtd.Rcs.C69_violated_rcs`
* C69 `Dgtd.Rcs.C69_violated_ranks`
* C16 `Dgtd.Gmsh.C16_normal`
* C16 `Dgtd.Gmsh.C16_untouched`
* C16 `Dgtd.Gmsh.C16_twice_partial`
* C16 `Dgtd.Gmsh.C16_violated_twice`
* C17 `Dgtd.Config.C17_classified`
* C17 `Dgtd.Config.C17_rejects`
* C17 `Dgtd.Config.C17_exclusive`
* C18 `Dgtd.Config.C18_first_wins`
* C18 `Dgtd.Config.C18_every_tag`
* C18 `Dgtd.Config.C18_rejects`
* C20 `Dgtd.Config.C20_values`
* C20 `Dgtd.Config.C20_end_to_end`
* C21 `Dgtd.Config.C21_nonpositive`
* C21 `Dgtd.Config.C21_thin_layers`
* C22 `Dgtd.Config.C22_first_source`
* C22 `Dgtd.Config.C22_single_partial`
* C22 `Dgtd.Config.C22_violated`
* C59 `Dgtd.Config.C59_boundary`
* C59 `Dgtd.Config.C59_boundary_error`
* C59 `Dgtd.Config.C59_layer_end`
* C59 `Dgtd.Config.C59_field`
* C59 `Dgtd.Config.C59_axis`
* C59 `Dgtd.Config.C59_evolution`
* C59 `Dgtd.Config.C59_one_to_one`
* C59 `Dgtd.Config.C59_no_others`
* C71 `Dgtd.Config.C71_faces_partial`
* C71 `Dgtd.Config.C71_violated`
* C72 `Dgtd.Config.C72_large_tag_partial`
* C72 `Dgtd.Config.C72_violated`
* C73 `Dgtd.Config.C73_listed_partial`
* C73 `Dgtd.Config.C73_violated`
* C19 `Dgtd.Layer.C19_exists`
* C19 `Dgtd.Layer.C19_values`
* C19 `Dgtd.Layer.C19_waves`
* C19 `Dgtd.Layer.C19_lossy`
* C58 `Dgtd.Layer.C58_range`
* C58 `Dgtd.Layer.C58_overrides`
* C58 `Dgtd.Layer.C58_rejects`
* C58 `Dgtd.Layer.C58_resolves`
* C58 `Dgtd.Layer.C58_not_wasteful`
* C58 `Dgtd.Layer.C58_depths`
* C58 `Dgtd.Layer.C58_order`
* C58 `Dgtd.Layer.C58_too_large_undefined`
* C58 `Dgtd.Layer.C58_ends`
* C74 `Dgtd.Layer.C74_positive`
* C74 `Dgtd.Layer.C74_fastest_partial`
* C74 `Dgtd.Layer.C74_violated`
* C53 `Dgtd.Launch.C53_accepted_iff`
* C75 `Dgtd.Launch.C75_violated`
* C10 `Dgtd.Mor.C10_budget`
* C10 `Dgtd.Mor.C10_subsequence`
* C10 `Dgtd.Mor.C10_window`
* C10 `Dgtd.Mor.C10_targets`
* C10 `Dgtd.Mor.C10_single`
* C10 `Dgtd.Mor.C10_first_instant`
* C76 `Dgtd.Mor.C76_all_written_partial`
* C76 `Dgtd.Mor.C76_whole_run_partial`
* C76 `Dgtd.Mor.C76_violated`
* C11 `Dgtd.TimeStep.C11_rejects`
* C11 `Dgtd.TimeStep.C11_accepts`
* C11 `Dgtd.TimeStep.C11_complete`
* C11 `Dgtd.TimeStep.C11_end_to_end`
* C11 `Dgtd.TimeStep.C11_other_ranks`
* C12 `Dgtd.TimeStep.C12_elements`
* C12 `Dgtd.TimeStep.C12_line`
* C12 `Dgtd.TimeStep.C12_nodal`
* C12 `Dgtd.TimeStep.C12_linear`
* C12 `Dgtd.TimeStep.C12_other_dimensions`
* C77 `Dgtd.TimeStep.C77_ends_partial`
* C77 `Dgtd.TimeStep.C77_violated`
* C78 `Dgtd.TimeStep.C78_defined_partial`
* C78 `Dgtd.TimeStep.C78_violated_order_zero`
* C78 `Dgtd.TimeStep.C78_violated_partition`
* C32 `Dgtd.Sources.C32_direct`
* C32 `Dgtd.Sources.C32_fallback_last`
* C32 `Dgtd.Sources.C32_paths_agree_partial`
* C32 `Dgtd.Sources.C32_maxwell_partial`
* C32 `Dgtd.Sources.C32_violated`
* C34 `Dgtd.Wave.C34_rejects`
* C34 `Dgtd.Wave.C34_transverse`
* C34 `Dgtd.Wave.C34_magnitude`
* C34 `Dgtd.Wave.C34_poynting`
* C34 `Dgtd.Wave.C34_retarded`
* C34 `Dgtd.Wave.C34_polarisation`
* C34 `Dgtd.Wave.C34_maxwell`
* C34 `Dgtd.Wave.C34_built`
* C79 `Dgtd.Wave.C79_dipole_maxwell`
* C79 `Dgtd.Wave.C79_origin`
* C80 `Dgtd.Wave.C80_upstream_partial`
* C80 `Dgtd.Wave.C80_centroids_partial`
* C80 `Dgtd.Wave.C80_dipole_partial`
* C80 `Dgtd.Wave.C80_violated`
* C81 `Dgtd.SourceCfg.C81_rejects`
* C81 `Dgtd.SourceCfg.C81_all_used_partial`
* C35 `Dgtd.SubMesh.C35_others`
* C36 `Dgtd.SubMesh.C36_exactly_one`
* C36 `Dgtd.SubMesh.C36_local_faces`
* C36 `Dgtd.SubMesh.C36_rule_space`
* C36 `Dgtd.SubMesh.C36_rule_partial`
* C36 `Dgtd.SubMesh.C36_last_wins`
* C36 `Dgtd.SubMesh.C36_line_partial`
* C36 `Dgtd.SubMesh.C36_line_rejects`
* C36 `Dgtd.SubMesh.C36_line_faces_partial`
* C36 `Dgtd.SubMesh.C36_line_faces_fails`
* C36 `Dgtd.SubMesh.C36_violated_line`
* C36 `Dgtd.SubMesh.C36_violated_conflict`
* C36 `Dgtd.SubMesh.C36_violated_reserved`
* C83 `Dgtd.SubMesh.C83_inside_partial`
* C83 `Dgtd.SubMesh.C83_violated`
* C83 `Dgtd.SubMesh.C83_line_partial`
* C83 `Dgtd.SubMesh.C83_line_one`
* C83 `Dgtd.SubMesh.C83_line_violated`
* C84 `Dgtd.SubMesh.C84_space_partial`
* C84 `Dgtd.SubMesh.C84_plane_first`
* C84 `Dgtd.SubMesh.C84_violated`
* C85 `Dgtd.SubMesh.C85_rejects`
* C85 `Dgtd.SubMesh.C85_first`
* C85 `Dgtd.SubMesh.C85_one_side_partial`
* C85 `Dgtd.SubMesh.C85_violated`
* C85 `Dgtd.SubMesh.C85_faces_plane`
* C85 `Dgtd.SubMesh.C85_faces_violated`
* C38 `Dgtd.NodalMaps.C38_iff`
* C38 `Dgtd.NodalMaps.C38_equivalence`
* C39 `Dgtd.NodalMaps.C39_order`
* C39 `Dgtd.NodalMaps.C39_stored`
* C40 `Dgtd.NodalMaps.C40_columns`
* C43 `Dgtd.NodalMaps.C43_violated`
* C43 `Dgtd.NodalMaps.C43_out_of_range`
* C44 `Dgtd.NodalMaps.C44_mapB`
* C44 `Dgtd.NodalMaps.C44_vmapB`
* C44 `Dgtd.NodalMaps.C44_lookup`
* C44 `Dgtd.NodalMaps.C44_interior`
* C86 `Dgtd.NodalMaps.C86_row`
* C86 `Dgtd.NodalMaps.C86_inner`
* C86 `Dgtd.NodalMaps.C86_pairs`
* C41 `Dgtd.Nodal.C41_tangential`
* C41 `Dgtd.Nodal.C41_dissipative`
* C42 `Dgtd.Nodal.C42_conditions`
* C42 `Dgtd.Nodal.C42_inside`
* C42 `Dgtd.Nodal.C42_overlap`
* C42 `Dgtd.Nodal.C42_others`
* C87 `Dgtd.Nodal.C87_energy`
* C88 `Dgtd.Nodal.C88_threshold`
* C88 `Dgtd.Nodal.C88_violated`
* C89 `Dgtd.Nodal.C89_absorbing_partial`
* C89 `Dgtd.Nodal.C89_violated_face`
* C89 `Dgtd.Nodal.C89_violated`
* C91 `Dgtd.SubMesh.C91_plane_partial`
* C91 `Dgtd.SubMesh.C91_space_first`
* C91 `Dgtd.SubMesh.C91_space_partial`
* C91 `Dgtd.SubMesh.C91_violated_plane`
* C91 `Dgtd.SubMesh.C91_violated_space`
* C45 `Dgtd.PoleFit.C45_best`
* C92 `Dgtd.PoleFit.C92_row`
* C92 `Dgtd.PoleFit.C92_poles`
* C94 `Dgtd.PoleFit.C94_ends`
* C94 `Dgtd.PoleFit.C94_increasing`
* C95 `Dgtd.Rcs.C95_same_wave_partial`
* C95 `Dgtd.Rcs.C95_violated_downstream`
* C95 `Dgtd.Rcs.C95_violated_several`
* C96 `Dgtd.Decimal.C96_round_trip`
* C96 `Dgtd.Decimal.C96_injective`
* C97 `Dgtd.Decimal.C97_one_rank_partial`
* C97 `Dgtd.Decimal.C97_violated`
* C98 `Dgtd.Decimal.C98_printed_partial`
* C98 `Dgtd.Decimal.C98_violated_printed`
* C98 `Dgtd.Decimal.C98_frames_partial`
* C98 `Dgtd.Decimal.C98_violated_frames`
* C99 `Dgtd.Decimal.C99_names_partial`
* C99 `Dgtd.Decimal.C99_files_partial`
* C99 `Dgtd.Decimal.C99_violated`
* C99 `Dgtd.Decimal.C99_violated_files`
* C100 `Dgtd.ProbeFiles.C100_file`
* C100 `Dgtd.ProbeCfg.C100_numbers`
* C101 `Dgtd.ProbeFiles.C101_domain_partial`
* C101 `Dgtd.ProbeFiles.C101_near_partial`
* C101 `Dgtd.ProbeFiles.C101_near_apart`
* C101 `Dgtd.ProbeFiles.C101_stale_near`
* C101 `Dgtd.ProbeFiles.C101_stale_mor`
* C103 `Dgtd.ProbeCfg.C103_violated_both`
* C105 `Dgtd.Device.C105_cpu_device`
* C105 `Dgtd.Device.C105_fields_partial`
* C105 `Dgtd.Device.C105_layers_partial`
* C105 `Dgtd.Device.C105_source_kernels_partial`
* C105 `Dgtd.Device.C105_violated_sources`
* C105 `Dgtd.Device.C105_violated_sources_witness`
* C105 `Dgtd.Device.C105_violated_layers`
* C106 `Dgtd.Op.C106_split_partial`
* C106 `Dgtd.Op.C106_split_one_sided_partial`
* C106 `Dgtd.Op.C106_no_trace_partial`
* C106 `Dgtd.Op.C106_violated_weak`
* C106 `Dgtd.Op.C106_violated_weak_witness`
* C107 `Dgtd.Op.C107_transparent`
* C108 `Dgtd.Op.C108_first_side_partial`
* C108 `Dgtd.Op.C108_second_side_partial`
* C108 `Dgtd.Op.C108_conducting_partial`
* C108 `Dgtd.Op.C108_violated_absorbing`
* C108 `Dgtd.Op.C108_violated_absorbing_witness`
* C109 `Dgtd.SgbcInit.C109_states`
* C109 `Dgtd.SgbcInit.C109_once_partial`
* C109 `Dgtd.SgbcInit.C109_nodes_partial`
* C109 `Dgtd.SgbcInit.C109_unlisted`
* C109 `Dgtd.SgbcInit.C109_tasks`
* C109 `Dgtd.SgbcInit.C109_copies_partial`
* C110 `Dgtd.SgbcInit.C110_first_element`
* C110 `Dgtd.SgbcInit.C110_same_side_partial`
* C110 `Dgtd.SgbcInit.C110_frame`
* C110 `Dgtd.SgbcInit.C110_violated`
* C111 `Dgtd.SgbcInit.C111_elements`
* C111 `Dgtd.SgbcInit.C111_lists`
* C111 `Dgtd.SgbcInit.C111_ready`
* C112 `Dgtd.SgbcInit.C112_violated_single`
* C113 `Dgtd.Op.C113_operators_agree_partial`
* C113 `Dgtd.Op.C113_split_partial`
* C113 `Dgtd.Op.C113_several`
* C113 `Dgtd.Op.C113_violated_medium`
* C113 `Dgtd.Op.C113_violated_several`
* C113 `Dgtd.Op.C113_violated_weak`
* C114 `Dgtd.Spectral.C114_matrix_partial`
* C114 `Dgtd.Spectral.C114_violated_centred`
* C115 `Dgtd.Spectral.C115_isolated_partial`
* C115 `Dgtd.Spectral.C115_fluxes_reversed`
* C115 `Dgtd.Spectral.C115_violated_growth`
* C116 `Dgtd.Spectral.C116_highest`
* C116 `Dgtd.Spectral.C116_solver_partial`
* C116 `Dgtd.Spectral.C116_violated`
* C117 `Dgtd.Spectral.C117_off`
* C117 `Dgtd.Spectral.C117_violated`
* C117 `Dgtd.Spectral.C117_violated_null`
* C117 `Dgtd.Spectral.C117_violated_stable`
* C117 `Dgtd.Spectral.C117_violated_unstable`
* C118 `Dgtd.TimeInt.C118_implicit_stable`
* C118 `Dgtd.TimeInt.C118_energy`
* C118 `Dgtd.TimeInt.C118_conserves`
* C118 `Dgtd.TimeInt.C118_layers`
* C118 `Dgtd.TimeInt.C118_constants`
* C119 `Dgtd.TimeInt.C119_bounded`
* C119 `Dgtd.TimeInt.C119_explicit_stable`
* C119 `Dgtd.TimeInt.C119_safe_step`
* C119 `Dgtd.TimeInt.C119_conservative`
* C120 `Dgtd.TimeInt.C120_violated`
* C120 `Dgtd.TimeInt.C119_explicit_stable`
* C121 `Dgtd.TimeInt.C121_violated`
* C121 `Dgtd.TimeInt.C121_works_partial`
* C122 `Dgtd.TimeInt.C122_solution`
* C122 `Dgtd.TimeInt.C122_converges_implicit`
* C122 `Dgtd.TimeInt.C122_converges_explicit`
* C122 `Dgtd.TimeInt.C122_driven_implicit`
* C122 `Dgtd.TimeInt.C122_driven_explicit`
* C122 `Dgtd.TimeInt.C122_implicit`
* C122 `Dgtd.TimeInt.C122_explicit`
* C122 `Dgtd.TimeInt.C122_affine`
* C122 `Dgtd.Par.C122_waves`
* C122 `Dgtd.Par.C122_converges_waves`
* C123 `Dgtd.TimeInt.C123_damped`
* C124 `Dgtd.Par.C124_global_partial`
* C124 `Dgtd.Par.C124_maxwell_partial`
* C124 `Dgtd.Par.C124_stored_partial`
* C124 `Dgtd.Par.C124_gather_partial`
* C125 `Dgtd.Par.C125_run_partial`
* C125 `Dgtd.Par.C125_run_maxwell_partial`
* C126 `Dgtd.Par.C126_violated`
* C127 `Dgtd.Par.C127_launch`
* C127 `Dgtd.Par.C127_one`
* C127 `Dgtd.Par.C127_same`
* C127 `Dgtd.Par.C127_violated`
* C128 `Dgtd.Par.C128_ranks`
* C128 `Dgtd.Par.C128_one`
* C128 `Dgtd.Par.C128_implicit`
* C129 `Dgtd.Nodal.C129_operator`
* C129 `Dgtd.Nodal.C129_factor`
* C129 `Dgtd.Nodal.C129_vacuum_partial`
* C129 `Dgtd.Nodal.C129_waves`
* C129 `Dgtd.Nodal.C129_run_partial`
* C129 `Dgtd.Nodal.C129_run_waves_partial`
* C129 `Dgtd.Nodal.C129_violated_permittivity`
* C129 `Dgtd.Nodal.C129_violated_losses`
* C129 `Dgtd.Nodal.C129_violated_absorbing`
* C129 `Dgtd.Nodal.C129_violated_walls`
* C129 `Dgtd.Nodal.C129_violated_quadrilaterals`
* C130 `Dgtd.Nodal.C130_violated_hexahedra`
* C131 `Dgtd.Frame.C131_operator`
* C131 `Dgtd.Frame.C131_run`
* C131 `Dgtd.Frame.C131_symmetric`
* C131 `Dgtd.Frame.C131_energy`
* C132 `Dgtd.Frame.C132_operator`
* C132 `Dgtd.Frame.C132_all`
* C132 `Dgtd.Frame.C132_run`
* C133 `Dgtd.Local.C133_operator`
* C133 `Dgtd.Local.C133_run`
* C134 `Dgtd.Local.C134_operator`
* C134 `Dgtd.Local.C134_run`
* C134 `Dgtd.Local.C134_shielded`
* C135 `Dgtd.Recip.C135_operator`
* C135 `Dgtd.Recip.C135_run`
* C136 `Dgtd.Super.C136_run`
* C136 `Dgtd.Super.C136_waves_partial`
* C136 `Dgtd.Super.C136_implicit_partial`
* C136 `Dgtd.Super.C136_violated`
* C137 `Dgtd.Super.C137_implicit`
* C137 `Dgtd.Super.C137_explicit`
* C138 `Dgtd.Nodal.C138_lists`
* C138 `Dgtd.Nodal.C138_tfsf`
* C138 `Dgtd.Nodal.C138_rows`
* C138 `Dgtd.Nodal.C138_waves`
* C138 `Dgtd.Nodal.C138_operator_partial`
* C138 `Dgtd.Nodal.C138_run_partial`
* C138 `Dgtd.Nodal.C138_unseen`
* C138 `Dgtd.Nodal.C138_scale_fails`
* C138 `Dgtd.Nodal.C138_first_order_fails`
* C139 `Dgtd.Mode.C139_value`
* C139 `Dgtd.Mode.C139_modes_fails`
* C139 `Dgtd.Mode.C139_plane`
* C139 `Dgtd.Mode.C139_line`
* C139 `Dgtd.Mode.C139_space_fails`
* C139 `Dgtd.Mode.C139_plane_fails`
* C139 `Dgtd.Mode.C139_line_fails`
* C139 `Dgtd.Mode.C139_zero_fails`
* C139 `Dgtd.Mode.C139_box_fails`
* C139 `Dgtd.Mode.C139_reference`
* C139 `Dgtd.Mode.C139_reference_fails`
* C140 `Dgtd.Mode.C140_value`
* C140 `Dgtd.Mode.C140_reads_fails`
* C140 `Dgtd.Mode.C140_split`
* C140 `Dgtd.Mode.C140_ring`
* C140 `Dgtd.Mode.C140_along_fails`
* C140 `Dgtd.Mode.C140_plane_fails`
* C140 `Dgtd.Mode.C140_space_fails`
* C141 `Dgtd.Galerkin.C141_integral`
* C141 `Dgtd.Galerkin.C141_turns`
* C141 `Dgtd.Galerkin.C141_sbp`
* C141 `Dgtd.Galerkin.C141_balance`
* C141 `Dgtd.Galerkin.C141_curved`
* C141 `Dgtd.Galerkin.C141_exact_iff`
* C141 `Dgtd.Galerkin.C141_energy`
* C141 `Dgtd.Galerkin.C141_square_fails`
* C141 `Dgtd.Galerkin.C141_grows_fails`
* C141 `Dgtd.Galerkin.C141_cube_fails`
* C141 `Dgtd.Galerkin.C141_cube_faces`
* C141 `Dgtd.Galerkin.C141_cube_normals`
* C141 `Dgtd.Galerkin.C141_mixed_fails`
* C142 `Dgtd.Galerkin.C142_assembled`
* C142 `Dgtd.Galerkin.C142_stable`
* C142 `Dgtd.Galerkin.C142_curved`
* C142 `Dgtd.Galerkin.C142_implicit`
* C142 `Dgtd.Galerkin.C142_explicit`
* C143 `Dgtd.Galerkin.C143_exact`
* C143 `Dgtd.Galerkin.C143_smooth`
* C143 `Dgtd.Galerkin.C143_static`
* C144 `Dgtd.Galerkin.C144_solution`
* C144 `Dgtd.Galerkin.C144_converges`
* C144 `Dgtd.Galerkin.C144_implicit`
* C144 `Dgtd.Galerkin.C144_explicit`
* C144 `Dgtd.Galerkin.C144_nodes`
* C145 `Dgtd.Galerkin.C145_continuity`
* C145 `Dgtd.Galerkin.C145_run`
* C145 `Dgtd.Galerkin.C145_held`
* C145 `Dgtd.Galerkin.C145_straight`
* C146 `Dgtd.Straight.C146_assembled`
* C146 `Dgtd.Straight.C146_stable`
* C146 `Dgtd.Straight.C146_implicit`
* C146 `Dgtd.Straight.C146_explicit`
* C146 `Dgtd.Straight.C146_turns`
* C146 `Dgtd.Straight.C146_product`
* C147 `Dgtd.PoleFit.C147_poles`
* C147 `Dgtd.PoleFit.C147_recovered_partial`
* C147 `Dgtd.PoleFit.C147_search_partial`
* C147 `Dgtd.PoleFit.C147_resistance_fails`
* C148 `Dgtd.PoleFit.C148_formula`
* C148 `Dgtd.PoleFit.C148_passive`
* C148 `Dgtd.PoleFit.C148_resistance`
* C149 `Dgtd.Galerkin.C149_rate`
* C149 `Dgtd.Galerkin.C149_stable`
* C149 `Dgtd.Galerkin.C149_automatic_partial`
* C149 `Dgtd.Galerkin.C149_violated_conductors`
* C150 `Dgtd.Galerkin.C150_implicit`
* C150 `Dgtd.Galerkin.C150_explicit`
* C150 `Dgtd.Galerkin.C150_converges_implicit`
* C150 `Dgtd.Galerkin.C150_converges_explicit`
* C151 `Dgtd.Simulate.C151_trace`
* C151 `Dgtd.Simulate.C151_implicit`
* C151 `Dgtd.Simulate.C151_explicit`
* C151 `Dgtd.Simulate.C151_automatic`
* C152 `Dgtd.Simulate.C152_implicit`
* C152 `Dgtd.Simulate.C152_automatic`
* C152 `Dgtd.Simulate.C152_converges`
* C153 `Dgtd.Galerkin.C153_solution`
* C153 `Dgtd.Galerkin.C153_explicit`
* C153 `Dgtd.Galerkin.C153_ranks`
* C153 `Dgtd.Galerkin.C153_implicit`
* C154 `Dgtd.Coll.C154_explicit`
* C154 `Dgtd.Coll.C154_implicit_partial`
* C154 `Dgtd.Coll.C154_results`
* C154 `Dgtd.Coll.C154_delay`
* C154 `Dgtd.Coll.C154_implicit_fails`
* C154 `Dgtd.Coll.C154_rejected`
* C155 `Dgtd.MeshRead.C155_last_partial`
* C155 `Dgtd.MeshRead.C155_once`
* C155 `Dgtd.MeshRead.C155_root`
* C155 `Dgtd.MeshRead.C155_violated`
* C156 `Dgtd.MeshRead.C156_partial`
* C156 `Dgtd.MeshRead.C156_untouched`
* C156 `Dgtd.MeshRead.C156_violated`
* C157 `Dgtd.Export.C157_product_partial`
* C157 `Dgtd.Export.C157_rates_partial`
* C157 `Dgtd.Export.C157_ranks`
* C157 `Dgtd.Export.C157_violated`
* C157 `Dgtd.Export.C157_snapshot_violated`
* C158 `Dgtd.Galerkin.C158_violated_line`
* C158 `Dgtd.Galerkin.C158_violated_triangles`
* C158 `Dgtd.Galerkin.C149_automatic_partial`
* C159 `Dgtd.Gmres.C159_outcome`
* C159 `Dgtd.Gmres.C159_never_worse`
* C159 `Dgtd.Gmres.C159_accuracy`
* C159 `Dgtd.Gmres.C159_run`
* C159 `Dgtd.Gmres.C159_small_step_partial`
* C159 `Dgtd.Gmres.C159_moderate_step_partial`
* C159 `Dgtd.Gmres.C159_violated`
* C159 `Dgtd.Gmres.C159_memory_fails`
* C160 `Dgtd.Straight.C160_exact`
* C160 `Dgtd.Straight.C160_held`
* C160 `Dgtd.Straight.C160_smooth`
* C160 `Dgtd.Straight.C160_static`
* C161 `Dgtd.Straight.C161_solution`
* C161 `Dgtd.Straight.C161_converges`
* C161 `Dgtd.Straight.C161_implicit`
* C161 `Dgtd.Straight.C161_explicit`
* C161 `Dgtd.Straight.C161_nodes`
* C162 `Dgtd.NodalFem.C162_same`
* C162 `Dgtd.NodalFem.C162_run`
* C162 `Dgtd.NodalFem.C162_error`
* C162 `Dgtd.NodalFem.C162_converges`
* C163 `Dgtd.SgbcReport.C163_verdict`
* C163 `Dgtd.SgbcReport.C163_first_partial`
* C163 `Dgtd.SgbcReport.C163_violated`
* C163 `Dgtd.SgbcReport.C163_steps_never`
* C163 `Dgtd.SgbcReport.C163_steps_violated`
* C164 `Dgtd.SgbcEvol.C164_run_partial`
* C164 `Dgtd.SgbcEvol.C164_violated_rate`
* C164 `Dgtd.SgbcEvol.C164_violated_fields`
* C165 `Dgtd.FloatClock.C165_returns_iff`
* C165 `Dgtd.FloatClock.C165_ends_partial`
* C165 `Dgtd.FloatClock.C165_long_runs_never_end`
* C165 `Dgtd.FloatClock.C165_violated`
* C166 `Dgtd.Nodal.C166_connectivity`
* C166 `Dgtd.Nodal.C166_tables_partial`
* C166 `Dgtd.Nodal.C166_same`
* C166 `Dgtd.Nodal.C166_surface`
* C166 `Dgtd.Nodal.C166_no_outer`
* C166 `Dgtd.Nodal.C166_simplices`
* C166 `Dgtd.Nodal.C166_simplices_listed`
* C166 `Dgtd.Nodal.C166_boxes_listed`
* C166 `Dgtd.Nodal.C166_violated_order_zero`
* C167 `Dgtd.Straight.C167_continuity`
* C167 `Dgtd.Straight.C167_run`
* C167 `Dgtd.Straight.C167_held`
* C167 `Dgtd.Straight.C167_complete`
* C168 `Dgtd.ChildBdr.C168_attributes`
* C168 `Dgtd.ChildBdr.C168_faces`
* C168 `Dgtd.ChildBdr.C168_surface_partial`
* C168 `Dgtd.ChildBdr.C168_violated`
* C169 `Dgtd.NodeNormal.C169_nearest`
* C169 `Dgtd.NodeNormal.C169_straight_partial`
* C169 `Dgtd.NodeNormal.C169_node_in_rule`
* C169 `Dgtd.NodeNormal.C169_error`
* C169 `Dgtd.NodeNormal.C169_violated`
* C170 `Dgtd.Reverse.C170_operator`
* C170 `Dgtd.Reverse.C170_run`
* C170 `Dgtd.Reverse.C170_solution`
* C170 `Dgtd.Reverse.C170_lost`
* C170 `Dgtd.Reverse.C170_violated`
* C171 `Dgtd.Dual.C171_operator`
* C171 `Dgtd.Dual.C171_run`
* C171 `Dgtd.Dual.C171_energy`
* C171 `Dgtd.Dual.C171_passive`
* C171 `Dgtd.Dual.C171_violated`
* C172 `Dgtd.Scale.C172_operator`
* C172 `Dgtd.Scale.C172_run`
* C172 `Dgtd.Scale.C172_passive`
* C172 `Dgtd.Scale.C172_step`
* C173 `Dgtd.Image.C173_operator`
* C173 `Dgtd.Image.C173_run`
* C173 `Dgtd.Image.C173_energy`
* C173 `Dgtd.Image.C173_passive`
* C173 `Dgtd.Image.C173_absorbing_fails`
* C174 `Dgtd.Power.C174_balance`
* C174 `Dgtd.Power.C174_exchange`
* C174 `Dgtd.Power.C174_poynting`
* C174 `Dgtd.Power.C174_parts`
* C174 `Dgtd.Power.C174_rate`
* C175 `Dgtd.Galerkin.C175_still`
* C175 `Dgtd.Galerkin.C175_run`
* C175 `Dgtd.Straight.C175_still`
* C175 `Dgtd.Straight.C175_run`
* C176 `Dgtd.Stats.C176_files`
* C176 `Dgtd.Stats.C176_modes`
* C176 `Dgtd.Stats.C176_stopped`
* C176 `Dgtd.Stats.C176_totals`
* C177 `Dgtd.Modes.C177_growth`
* C177 `Dgtd.Modes.C177_pure`
* C177 `Dgtd.Modes.C177_neutral`
* C177 `Dgtd.Modes.C177_orthogonal`
* C177 `Dgtd.Modes.C177_solution`
* C177 `Dgtd.Modes.C177_matrix`
* C178 `Dgtd.Account.C178_recorded`
* C178 `Dgtd.Account.C178_region`
* C178 `Dgtd.Account.C178_total`
* C178 `Dgtd.Account.C178_heat`
* C179 `Dgtd.SurfaceDirs.C179_reads`
* C179 `Dgtd.SurfaceDirs.C179_request`
* C179 `Dgtd.SurfaceDirs.C179_files`
* C179 `Dgtd.SurfaceDirs.C179_order`
* C179 `Dgtd.SurfaceDirs.C179_results`
* C179 `Dgtd.SurfaceDirs.C179_stopped_violated`
* C180 `Dgtd.SurfaceDirs.C180_partial`
* C180 `Dgtd.SurfaceDirs.C180_exact_partial`
* C181 `Dgtd.SurfaceRun.C181_ranks`
* C182 `Dgtd.Spectra.C182_converges`
* C182 `Dgtd.Spectra.C182_limit`
* C182 `Dgtd.Spectra.C182_instants`
* C182 `Dgtd.Spectra.C182_run`
* C183 `Dgtd.Partition.C183_report`
* C183 `Dgtd.Partition.C183_silent`
* C184 `Dgtd.Renumber.C184_case_partial`
* C184 `Dgtd.Renumber.C184_surfaces_partial`
* C184 `Dgtd.Renumber.C184_violated`
* C185 `Dgtd.EntryOrder.C185_case_partial`
* C185 `Dgtd.EntryOrder.C185_surfaces_partial`
* C185 `Dgtd.EntryOrder.C185_violated`
* C186 `Dgtd.Watch.C186_watch`
* C186 `Dgtd.Watch.C186_layers`
* C187 `Dgtd.Longer.C187_longer`
* C187 `Dgtd.Longer.C187_layers`
* C188 `Dgtd.AtRest.C188_empty`
* C189 `Dgtd.Memory.C189_no_memory`
* C190 `Dgtd.NoLayers.C190_no_layers`
* C191 `Dgtd.LayerStep.C191_layer_step`
* C192 `Dgtd.Finish.C192_finishes`
* C193 `Dgtd.Drop.C193_rates`
* C193 `Dgtd.Drop.C193_exact`
* C193 `Dgtd.Drop.C193_run`
* C193 `Dgtd.Drop.C193_constant`
* C193 `Dgtd.Drop.C193_violated`
* C194 `Dgtd.Drop.C194_ranks_partial`
* C194 `Dgtd.Drop.C194_run_partial`
