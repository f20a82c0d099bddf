{
 "claims": [
  {
   "property": "C07",
   "status": "proved",
   "theorems": [
    "Dgtd.TimeLoop.C07_run_reaches_final_time",
    "Dgtd.TimeLoop.C07_negative_step_never_returns"
   ],
   "note": "Second theorem: the claim fails for a negative time_step, which the code does not reject."
  },
  {
   "property": "C08",
   "status": "partial",
   "theorems": [
    "Dgtd.TimeLoop.C08_probe_records",
    "Dgtd.TimeLoop.C08_first_instant_recorded",
    "Dgtd.TimeLoop.C08_last_instant_recorded_partial",
    "Dgtd.TimeLoop.C08_last_instant_missed"
   ],
   "note": "The final instant is recorded only for steps of at most one time unit; a counter-example for longer steps is proved."
  },
  {
   "property": "C09",
   "status": "proved",
   "theorems": [
    "Dgtd.TimeLoop.C09_saves_bounds"
   ],
   "note": ""
  },
  {
   "property": "C04",
   "status": "proved",
   "theorems": [
    "Dgtd.Csr.C04_merge_is_sum",
    "Dgtd.Csr.C04_no_uninitialised_data"
   ],
   "note": "Model of mergeBlocksToCSR; doubles idealised as a commutative ring."
  },
  {
   "property": "C05",
   "status": "proved",
   "theorems": [
    "Dgtd.Csr.C05_routes_agree",
    "Dgtd.Csr.C05_order_irrelevant"
   ],
   "note": "Scatter route (loadBlockInGlobalAtIndices) against merge route."
  },
  {
   "property": "C01",
   "status": "proved",
   "theorems": [
    "Dgtd.Op.C01_energy_balance",
    "Dgtd.Op.C01_energy_never_grows",
    "Dgtd.Op.C01_energy_antitone",
    "Dgtd.Op.C01_backward_euler",
    "Dgtd.Op.C01_implicit_midpoint",
    "Dgtd.Op.C01_merged_operator"
   ],
   "note": "Exact quadrature (integration by parts) and non-negative weights are hypotheses; interior SGBC walls are excluded because a separate solver drives them."
  },
  {
   "property": "C02",
   "status": "proved",
   "theorems": [
    "Dgtd.Op.C02_centred_conserves",
    "Dgtd.Op.C02_energy_constant",
    "Dgtd.Op.C02_implicit_midpoint"
   ],
   "note": ""
  },
  {
   "property": "C03",
   "status": "partial",
   "theorems": [
    "Dgtd.Op.C03_operators_agree_partial",
    "Dgtd.Op.C03_conductivity_dropped"
   ],
   "note": "Equal when the conductivity is zero; with conductivity the code's two operators differ and the counter-example is proved."
  },
  {
   "property": "C06",
   "status": "proved",
   "theorems": [
    "Dgtd.Fields.C06_components_tile",
    "Dgtd.Fields.C06_write_isolated",
    "Dgtd.Fields.C06_aggregate_views",
    "Dgtd.Fields.C06_offsets_agree",
    "Dgtd.Fields.C06_initially_zero"
   ],
   "note": ""
  },
  {
   "property": "C61",
   "status": "partial",
   "theorems": [
    "Dgtd.Op.C61_zeroNormal",
    "Dgtd.Op.C61_oneNormal",
    "Dgtd.Op.C61_twoNormal",
    "Dgtd.Op.C61_interior0",
    "Dgtd.Op.C61_interior1",
    "Dgtd.Op.C61_interior2",
    "Dgtd.Op.C61_hesthavenFlux",
    "Dgtd.Op.C61_traceJump",
    "Dgtd.Op.C61_totalField_partial",
    "Dgtd.Op.C61_totalField_loses_points",
    "Dgtd.Op.C61_boundaryJump_partial",
    "Dgtd.Op.C61_boundaryJump_loses_points",
    "Dgtd.Op.C61_decoupled",
    "Dgtd.Op.C61_sma",
    "Dgtd.Op.C61_totalNormal",
    "Dgtd.Op.C61_totalFlux_partial",
    "Dgtd.Op.C61_totalFlux_loses_points",
    "Dgtd.Op.C61_totalPenalty_partial",
    "Dgtd.Op.C61_totalPenalty_loses_points"
   ],
   "note": "True of the integrators the solver uses; four integrators keep only the last quadrature point and the counter-examples are proved."
  },
  {
   "property": "C62",
   "status": "proved",
   "theorems": [
    "Dgtd.Op.C62_no_flux",
    "Dgtd.Op.C62_continuous_fields"
   ],
   "note": ""
  },
  {
   "property": "C13",
   "status": "proved",
   "theorems": [
    "Dgtd.Partition.C13_completes",
    "Dgtd.Partition.C13_linked_same_rank",
    "Dgtd.Partition.C13_file"
   ],
   "note": "For every hash-map order and unstable sort outcome."
  },
  {
   "property": "C14",
   "status": "proved",
   "theorems": [
    "Dgtd.Partition.C14_only_moves_what_it_must",
    "Dgtd.Partition.C14_file"
   ],
   "note": ""
  },
  {
   "property": "C15",
   "status": "proved",
   "theorems": [
    "Dgtd.Partition.C15_accounting",
    "Dgtd.Partition.C15_greedy",
    "Dgtd.Partition.C15_balance"
   ],
   "note": ""
  },
  {
   "property": "C23",
   "status": "proved",
   "theorems": [
    "Dgtd.Sgbc.C23_elements",
    "Dgtd.Sgbc.C23_needs_a_segment",
    "Dgtd.Sgbc.C23_layer_vertices",
    "Dgtd.Sgbc.C23_ghost_vertices",
    "Dgtd.Sgbc.C23_vertices_increasing",
    "Dgtd.Sgbc.C23_attributes",
    "Dgtd.Sgbc.C23_interfaces",
    "Dgtd.Sgbc.C23_materials",
    "Dgtd.Sgbc.C23_interface_nodes",
    "Dgtd.Sgbc.C23_ghost_count",
    "Dgtd.Sgbc.C23_empty_layer_vanishes"
   ],
   "note": "Geometry claims need at least one segment per layer; a layer with zero segments silently vanishes (last theorem)."
  },
  {
   "property": "C24",
   "status": "proved",
   "theorems": [
    "Dgtd.FaceRotation.C24_is_rotation",
    "Dgtd.FaceRotation.C24_normal_to_axis",
    "Dgtd.FaceRotation.C24_round_trip",
    "Dgtd.FaceRotation.C24_preserves_products",
    "Dgtd.FaceRotation.C24_zero_normal"
   ],
   "note": ""
  },
  {
   "property": "C27",
   "status": "partial",
   "theorems": [
    "Dgtd.Sgbc.C27_defined",
    "Dgtd.Sgbc.C27_substeps_cover",
    "Dgtd.Sgbc.C27_fractions",
    "Dgtd.Sgbc.C27_advances_global_step_partial",
    "Dgtd.Sgbc.C27_tiny_substeps_freeze",
    "Dgtd.Sgbc.C27_recommended"
   ],
   "note": "The sub-steps cover the global step, but the code skips any sub-step shorter than 1e-9, so very thin layers never advance; counter-example proved."
  },
  {
   "property": "C28",
   "status": "proved",
   "theorems": [
    "Dgtd.Sgbc.C28_ghost_nodes",
    "Dgtd.Sgbc.C28_ends",
    "Dgtd.Sgbc.C28_between",
    "Dgtd.Sgbc.C28_ghosts_from_fields",
    "Dgtd.Sgbc.C28_interpolation_meets_fields"
   ],
   "note": ""
  },
  {
   "property": "C31",
   "status": "proved",
   "theorems": [
    "Dgtd.Implicit.C31_never_stale",
    "Dgtd.Implicit.C31_history_independent",
    "Dgtd.Implicit.C31_completes",
    "Dgtd.Implicit.C31_mark_as_first_step",
    "Dgtd.Implicit.C31_integrator"
   ],
   "note": "Dense branch (the thin-layer solver and other small systems); the iterative branch is C159."
  },
  {
   "property": "C64",
   "status": "proved",
   "theorems": [
    "Dgtd.Implicit.C64_always_solvable",
    "Dgtd.Implicit.C64_solves_complete"
   ],
   "note": ""
  },
  {
   "property": "C25",
   "status": "proved",
   "theorems": [
    "Dgtd.SgbcEvol.C25_rhs_repeatable",
    "Dgtd.SgbcEvol.C25_step_determined",
    "Dgtd.SgbcEvol.C25_needs_commit",
    "Dgtd.SgbcEvol.C25_inner_integrator"
   ],
   "note": "The inner integrator is a parameter that answers as a function of its arguments; C25_inner_integrator shows the modelled one does."
  },
  {
   "property": "C26",
   "status": "proved",
   "theorems": [
    "Dgtd.SgbcEvol.C26_schedule_independent",
    "Dgtd.SgbcEvol.C26_no_deadlock",
    "Dgtd.SgbcEvol.C26_terminates",
    "Dgtd.SgbcEvol.C26_completes",
    "Dgtd.SgbcEvol.C26_stage_and_step"
   ],
   "note": "Every interleaving of any number of threads over the task list."
  },
  {
   "property": "C29",
   "status": "proved",
   "theorems": [
    "Dgtd.SgbcEvol.C29_isolated",
    "Dgtd.SgbcEvol.C29_save_load"
   ],
   "note": ""
  },
  {
   "property": "C30",
   "status": "proved",
   "theorems": [
    "Dgtd.SgbcEvol.C30_scratch_zero",
    "Dgtd.SgbcEvol.C30_explicit_any_scratch"
   ],
   "note": ""
  },
  {
   "property": "C65",
   "status": "partial",
   "theorems": [
    "Dgtd.SgbcEvol.C65_other_layers_partial",
    "Dgtd.SgbcEvol.C65_one_face",
    "Dgtd.SgbcEvol.C65_face_flux_partial",
    "Dgtd.SgbcEvol.C65_violated_corner",
    "Dgtd.SgbcEvol.C65_violated_facing"
   ],
   "note": "True for faces whose rows do not refer to nodes of other thin-layer faces; false for corners and for sheets one element apart, with proved counter-examples."
  },
  {
   "property": "C66",
   "status": "partial",
   "theorems": [
    "Dgtd.SgbcEvol.C66_interior_acts_partial",
    "Dgtd.SgbcEvol.C66_violated"
   ],
   "note": "Interior faces act back; the code ignores exterior layers, proved in general."
  },
  {
   "property": "C67",
   "status": "partial",
   "theorems": [
    "Dgtd.SgbcEvol.C67_without_layers_partial",
    "Dgtd.SgbcEvol.C67_violated",
    "Dgtd.SgbcEvol.C67_violated_witness"
   ],
   "note": "Implicit integrators drop the thin layers."
  },
  {
   "property": "C46",
   "status": "proved",
   "theorems": [
    "Dgtd.SurfaceFile.C46_round_trip",
    "Dgtd.SurfaceFile.C46_header_count",
    "Dgtd.SurfaceFile.C46_reader_terminates"
   ],
   "note": "Byte-level model of the surface file writer and reader; every bit pattern of every field is recovered, for all sizes that fit the 32-bit header fields."
  },
  {
   "property": "C47",
   "status": "partial",
   "theorems": [
    "Dgtd.SurfaceFile.C47_exact",
    "Dgtd.SurfaceFile.C47_complete_snapshots_survive_partial",
    "Dgtd.SurfaceFile.C47_violated"
   ],
   "note": "Complete snapshots always survive truncation, but a partial last record is kept when its time stamp is whole: the reader appends a zero- or stale-filled snapshot (C47_violated)."
  },
  {
   "property": "C37",
   "status": "proved",
   "theorems": [
    "Dgtd.Spherical.C37_round_trip",
    "Dgtd.Spherical.C37_round_trip_plane",
    "Dgtd.Spherical.C37_round_trip_back",
    "Dgtd.Spherical.C37_field",
    "Dgtd.Spherical.C37_field_length"
   ],
   "note": ""
  },
  {
   "property": "C48",
   "status": "proved",
   "theorems": [
    "Dgtd.Rcs.C48_split",
    "Dgtd.Rcs.C48_far_field"
   ],
   "note": "Every distribution of surface samples over ranks gives the same files; no sample at the origin of coordinates (see C50)."
  },
  {
   "property": "C49",
   "status": "proved",
   "theorems": [
    "Dgtd.Rcs.C49_filter",
    "Dgtd.Rcs.C49_run",
    "Dgtd.Rcs.C49_error"
   ],
   "note": ""
  },
  {
   "property": "C50",
   "status": "partial",
   "theorems": [
    "Dgtd.Rcs.C50_phase_partial",
    "Dgtd.Rcs.C50_violated_origin"
   ],
   "note": "True away from the origin of coordinates; at the origin the code divides zero by zero."
  },
  {
   "property": "C51",
   "status": "proved",
   "theorems": [
    "Dgtd.Rcs.C51_frame",
    "Dgtd.Rcs.C51_nonneg"
   ],
   "note": "Negative frequencies in two dimensions excluded."
  },
  {
   "property": "C52",
   "status": "proved",
   "theorems": [
    "Dgtd.Rcs.C52_linear",
    "Dgtd.Rcs.C52_schedule"
   ],
   "note": ""
  },
  {
   "property": "C54",
   "status": "partial",
   "theorems": [
    "Dgtd.Rcs.C54_last_wave_partial",
    "Dgtd.Rcs.C54_violated"
   ],
   "note": "The code never refuses a case without plane wave: sentinel and guard have opposite signs."
  },
  {
   "property": "C55",
   "status": "partial",
   "theorems": [
    "Dgtd.Rcs.C55_merge_sums_partial",
    "Dgtd.Rcs.C55_violated"
   ],
   "note": "Contributions are added, but so is the normalisation."
  },
  {
   "property": "C56",
   "status": "proved",
   "theorems": [
    "Dgtd.Rcs.C56_count",
    "Dgtd.Rcs.C56_values",
    "Dgtd.Rcs.C56_first",
    "Dgtd.Rcs.C56_last",
    "Dgtd.Rcs.C56_inside",
    "Dgtd.Rcs.C56_distinct",
    "Dgtd.Rcs.C56_product",
    "Dgtd.Rcs.C56_product_distinct"
   ],
   "note": ""
  },
  {
   "property": "C68",
   "status": "partial",
   "theorems": [
    "Dgtd.Rcs.C68_request_partial",
    "Dgtd.Rcs.C68_repetition_scales",
    "Dgtd.Rcs.C68_violated",
    "Dgtd.Rcs.C68_request_repeats"
   ],
   "note": "True for requests without repetitions; otherwise intensities carry the square of the number of repetitions."
  },
  {
   "property": "C69",
   "status": "partial",
   "theorems": [
    "Dgtd.Rcs.C69_same_intensity_partial",
    "Dgtd.Rcs.C69_violated_2D",
    "Dgtd.Rcs.C69_violated_rcs",
    "Dgtd.Rcs.C69_violated_ranks"
   ],
   "note": "Same intensity in three dimensions for one rank; false otherwise, with the exact factors proved."
  },
  {
   "property": "C16",
   "status": "partial",
   "theorems": [
    "Dgtd.Gmsh.C16_normal",
    "Dgtd.Gmsh.C16_untouched",
    "Dgtd.Gmsh.C16_entries",
    "Dgtd.Gmsh.C16_count",
    "Dgtd.Gmsh.C16_twice_partial",
    "Dgtd.Gmsh.C16_violated_twice"
   ],
   "note": "All proved except that a second pass changes nothing, which needs element lines whose entries are integers; counter-example proved otherwise."
  },
  {
   "property": "C70",
   "status": "partial",
   "theorems": [
    "Dgtd.Gmsh.C70_simplices_partial",
    "Dgtd.Gmsh.C70_violated_hexahedra"
   ],
   "note": "True for triangles and tetrahedra only; the dimension is not recognised for quadrilaterals and hexahedra."
  },
  {
   "property": "C17",
   "status": "proved",
   "theorems": [
    "Dgtd.Config.C17_classified",
    "Dgtd.Config.C17_rejects",
    "Dgtd.Config.C17_exclusive"
   ],
   "note": ""
  },
  {
   "property": "C18",
   "status": "proved",
   "theorems": [
    "Dgtd.Config.C18_first_wins",
    "Dgtd.Config.C18_every_tag",
    "Dgtd.Config.C18_rejects"
   ],
   "note": ""
  },
  {
   "property": "C20",
   "status": "proved",
   "theorems": [
    "Dgtd.Config.C20_values",
    "Dgtd.Config.C20_end_to_end"
   ],
   "note": ""
  },
  {
   "property": "C21",
   "status": "proved",
   "theorems": [
    "Dgtd.Config.C21_markers",
    "Dgtd.Config.C21_entry",
    "Dgtd.Config.C21_nonpositive",
    "Dgtd.Config.C21_thin_layers"
   ],
   "note": ""
  },
  {
   "property": "C22",
   "status": "partial",
   "theorems": [
    "Dgtd.Config.C22_first_source",
    "Dgtd.Config.C22_single_partial",
    "Dgtd.Config.C22_violated"
   ],
   "note": "Only the first source with faces in the partition is marked; true with a single total-field source, counter-example for two."
  },
  {
   "property": "C59",
   "status": "proved",
   "theorems": [
    "Dgtd.Config.C59_boundary",
    "Dgtd.Config.C59_boundary_error",
    "Dgtd.Config.C59_layer_end",
    "Dgtd.Config.C59_field",
    "Dgtd.Config.C59_axis",
    "Dgtd.Config.C59_evolution",
    "Dgtd.Config.C59_one_to_one",
    "Dgtd.Config.C59_no_others"
   ],
   "note": ""
  },
  {
   "property": "C71",
   "status": "partial",
   "theorems": [
    "Dgtd.Config.C71_faces_partial",
    "Dgtd.Config.C71_violated"
   ],
   "note": "Fails for an attribute used on inner and outer faces: the outer faces lose their condition."
  },
  {
   "property": "C72",
   "status": "partial",
   "theorems": [
    "Dgtd.Config.C72_large_tag_partial",
    "Dgtd.Config.C72_violated"
   ],
   "note": "Nobody checks: tags beyond the largest attribute are an out-of-bounds write, smaller ones are ignored."
  },
  {
   "property": "C73",
   "status": "partial",
   "theorems": [
    "Dgtd.Config.C73_listed_partial",
    "Dgtd.Config.C73_violated"
   ],
   "note": "Unlisted attributes are accepted and read permittivity zero or out of bounds."
  },
  {
   "property": "C19",
   "status": "proved",
   "theorems": [
    "Dgtd.Layer.C19_exists",
    "Dgtd.Layer.C19_values",
    "Dgtd.Layer.C19_waves",
    "Dgtd.Layer.C19_lossy"
   ],
   "note": ""
  },
  {
   "property": "C58",
   "status": "proved",
   "theorems": [
    "Dgtd.Layer.C58_range",
    "Dgtd.Layer.C58_overrides",
    "Dgtd.Layer.C58_rejects",
    "Dgtd.Layer.C58_resolves",
    "Dgtd.Layer.C58_not_wasteful",
    "Dgtd.Layer.C58_depths",
    "Dgtd.Layer.C58_order",
    "Dgtd.Layer.C58_too_large_undefined",
    "Dgtd.Layer.C58_ends"
   ],
   "note": "Resolution is guaranteed up to the clamp at 1000 segments; a segment count that does not fit an int is undefined behaviour (C58_too_large_undefined)."
  },
  {
   "property": "C74",
   "status": "partial",
   "theorems": [
    "Dgtd.Layer.C74_positive",
    "Dgtd.Layer.C74_fastest_partial",
    "Dgtd.Layer.C74_violated"
   ],
   "note": "A plain Gaussian is ignored next to a modulated one."
  },
  {
   "property": "C53",
   "status": "proved",
   "theorems": [
    "Dgtd.Launch.C53_accepted_iff",
    "Dgtd.Launch.C53_result_name",
    "Dgtd.Launch.C53_result_name_iff"
   ],
   "note": ""
  },
  {
   "property": "C57",
   "status": "proved",
   "theorems": [
    "Dgtd.Launch.C57_meaning",
    "Dgtd.Launch.C57_composed",
    "Dgtd.Launch.C57_no_arguments",
    "Dgtd.Launch.C57_run_only_json",
    "Dgtd.Launch.C57_rcs_run_only_path",
    "Dgtd.Launch.C57_rcs_meaning",
    "Dgtd.Launch.C57_rcs_total"
   ],
   "note": ""
  },
  {
   "property": "C75",
   "status": "partial",
   "theorems": [
    "Dgtd.Launch.C75_own_mesh_partial",
    "Dgtd.Launch.C75_violated"
   ],
   "note": "False for names containing .json or .mesh."
  },
  {
   "property": "C10",
   "status": "proved",
   "theorems": [
    "Dgtd.Mor.C10_budget",
    "Dgtd.Mor.C10_subsequence",
    "Dgtd.Mor.C10_window",
    "Dgtd.Mor.C10_targets",
    "Dgtd.Mor.C10_single",
    "Dgtd.Mor.C10_first_instant"
   ],
   "note": ""
  },
  {
   "property": "C76",
   "status": "partial",
   "theorems": [
    "Dgtd.Mor.C76_all_written_partial",
    "Dgtd.Mor.C76_whole_run_partial",
    "Dgtd.Mor.C76_violated"
   ],
   "note": "Proved when the run has an instant at the end of the window and steps shorter than the spacing; a run that steps over the end loses the last snapshot."
  },
  {
   "property": "C11",
   "status": "proved",
   "theorems": [
    "Dgtd.TimeStep.C11_rejects",
    "Dgtd.TimeStep.C11_accepts",
    "Dgtd.TimeStep.C11_complete",
    "Dgtd.TimeStep.C11_end_to_end",
    "Dgtd.TimeStep.C11_other_ranks"
   ],
   "note": "Only the first rank checks; its error takes the run down."
  },
  {
   "property": "C12",
   "status": "proved",
   "theorems": [
    "Dgtd.TimeStep.C12_elements",
    "Dgtd.TimeStep.C12_line",
    "Dgtd.TimeStep.C12_nodal",
    "Dgtd.TimeStep.C12_linear",
    "Dgtd.TimeStep.C12_other_dimensions"
   ],
   "note": "Triangles, quadrilaterals, tetrahedra, hexahedra with parallelogram faces; real arithmetic."
  },
  {
   "property": "C77",
   "status": "partial",
   "theorems": [
    "Dgtd.TimeStep.C77_ends_partial",
    "Dgtd.TimeStep.C77_violated"
   ],
   "note": "Negative time steps are accepted and never end."
  },
  {
   "property": "C78",
   "status": "partial",
   "theorems": [
    "Dgtd.TimeStep.C78_defined_partial",
    "Dgtd.TimeStep.C78_violated_order_zero",
    "Dgtd.TimeStep.C78_violated_partition"
   ],
   "note": "Order zero in two or three dimensions, and the nodal operator on partitions or curved meshes, read out of bounds."
  },
  {
   "property": "C32",
   "status": "partial",
   "theorems": [
    "Dgtd.Sources.C32_direct",
    "Dgtd.Sources.C32_direct_superposes",
    "Dgtd.Sources.C32_nodal",
    "Dgtd.Sources.C32_fallback_last",
    "Dgtd.Sources.C32_paths_agree_partial",
    "Dgtd.Sources.C32_maxwell_count",
    "Dgtd.Sources.C32_maxwell_partial",
    "Dgtd.Sources.C32_violated"
   ],
   "note": "Global and nodal operators superpose. The maxwell operator keeps the last source and multiplies it by the number of sources."
  },
  {
   "property": "C33",
   "status": "proved",
   "theorems": [
    "Dgtd.Sources.C33_sum",
    "Dgtd.Sources.C33_order",
    "Dgtd.Sources.C33_own_field",
    "Dgtd.Sources.C33_short_centre"
   ],
   "note": "Nodal projection; the centre must have as many coordinates as the mesh."
  },
  {
   "property": "C34",
   "status": "proved",
   "theorems": [
    "Dgtd.Wave.C34_rejects",
    "Dgtd.Wave.C34_transverse",
    "Dgtd.Wave.C34_magnitude",
    "Dgtd.Wave.C34_poynting",
    "Dgtd.Wave.C34_retarded",
    "Dgtd.Wave.C34_polarisation",
    "Dgtd.Wave.C34_maxwell",
    "Dgtd.Wave.C34_built"
   ],
   "note": "Also: the waves solve Maxwell's equations. Real arithmetic."
  },
  {
   "property": "C79",
   "status": "proved",
   "theorems": [
    "Dgtd.Wave.C79_dipole_maxwell",
    "Dgtd.Wave.C79_origin"
   ],
   "note": "Real arithmetic; undefined at the origin."
  },
  {
   "property": "C80",
   "status": "partial",
   "theorems": [
    "Dgtd.Wave.C80_upstream_partial",
    "Dgtd.Wave.C80_centroids_partial",
    "Dgtd.Wave.C80_dipole_partial",
    "Dgtd.Wave.C80_violated"
   ],
   "note": "Holds at face centroids; other points of large faces can see the pulse at time zero."
  },
  {
   "property": "C81",
   "status": "partial",
   "theorems": [
    "Dgtd.SourceCfg.C81_rejects",
    "Dgtd.SourceCfg.C81_all_used_partial",
    "Dgtd.SourceCfg.C81_violated"
   ],
   "note": "An initial field with an unknown magnitude is accepted and ignored."
  },
  {
   "property": "C82",
   "status": "partial",
   "theorems": [
    "Dgtd.SourceCfg.C82_three_partial",
    "Dgtd.SourceCfg.C82_violated_short",
    "Dgtd.SourceCfg.C82_violated_long"
   ],
   "note": "Short vectors leave entries uninitialised, long ones write out of bounds."
  },
  {
   "property": "C35",
   "status": "proved",
   "theorems": [
    "Dgtd.SubMesh.C35_add",
    "Dgtd.SubMesh.C35_round_trip",
    "Dgtd.SubMesh.C35_others"
   ],
   "note": "Value of every degree of freedom after a transfer, both round trips, unmapped degrees of freedom unchanged."
  },
  {
   "property": "C36",
   "status": "partial",
   "theorems": [
    "Dgtd.SubMesh.C36_global",
    "Dgtd.SubMesh.C36_exactly_one",
    "Dgtd.SubMesh.C36_local_faces",
    "Dgtd.SubMesh.C36_rule_plane",
    "Dgtd.SubMesh.C36_rule_space",
    "Dgtd.SubMesh.C36_rule_partial",
    "Dgtd.SubMesh.C36_last_wins",
    "Dgtd.SubMesh.C36_line_partial",
    "Dgtd.SubMesh.C36_line_rejects",
    "Dgtd.SubMesh.C36_line_faces_partial",
    "Dgtd.SubMesh.C36_line_faces_fails",
    "Dgtd.SubMesh.C36_violated_line",
    "Dgtd.SubMesh.C36_violated_conflict",
    "Dgtd.SubMesh.C36_violated_reserved"
   ],
   "note": "Exactly one region in two and three dimensions. The rule of a face is obeyed only if the faces around the element agree; in one dimension a point next to the first or last segment loses an element."
  },
  {
   "property": "C83",
   "status": "partial",
   "theorems": [
    "Dgtd.SubMesh.C83_inside_partial",
    "Dgtd.SubMesh.C83_violated",
    "Dgtd.SubMesh.C83_line_partial",
    "Dgtd.SubMesh.C83_line_one",
    "Dgtd.SubMesh.C83_line_violated"
   ],
   "note": "The closest-to-the-centre rule is wrong for some convex surfaces; on a line the regions are exchanged when the right point is listed first."
  },
  {
   "property": "C84",
   "status": "partial",
   "theorems": [
    "Dgtd.SubMesh.C84_space_partial",
    "Dgtd.SubMesh.C84_plane_first",
    "Dgtd.SubMesh.C84_violated"
   ],
   "note": "Holds in space; in the plane the sides follow the numbering."
  },
  {
   "property": "C85",
   "status": "partial",
   "theorems": [
    "Dgtd.SubMesh.C85_chosen",
    "Dgtd.SubMesh.C85_rejects",
    "Dgtd.SubMesh.C85_first",
    "Dgtd.SubMesh.C85_one_side_partial",
    "Dgtd.SubMesh.C85_violated",
    "Dgtd.SubMesh.C85_faces_plane",
    "Dgtd.SubMesh.C85_faces_violated"
   ],
   "note": "One element per face, but always the lower-numbered one, so sides mix for some numberings; in space the recorded face number is that of the other element."
  },
  {
   "property": "C38",
   "status": "proved",
   "theorems": [
    "Dgtd.NodalMaps.C38_iff",
    "Dgtd.NodalMaps.C38_rejects",
    "Dgtd.NodalMaps.C38_equivalence",
    "Dgtd.NodalMaps.C38_repeated_vertices"
   ],
   "note": "Distinct vertices; with repeated vertices the relation is not symmetric."
  },
  {
   "property": "C39",
   "status": "proved",
   "theorems": [
    "Dgtd.NodalMaps.C39_order",
    "Dgtd.NodalMaps.C39_stored"
   ],
   "note": ""
  },
  {
   "property": "C40",
   "status": "proved",
   "theorems": [
    "Dgtd.NodalMaps.C40_columns"
   ],
   "note": ""
  },
  {
   "property": "C43",
   "status": "partial",
   "theorems": [
    "Dgtd.NodalMaps.C43_violated",
    "Dgtd.NodalMaps.C43_out_of_range",
    "Dgtd.NodalMaps.C43_first_partial"
   ],
   "note": "Wrong stride: right only for one element of order zero and two of order one."
  },
  {
   "property": "C44",
   "status": "proved",
   "theorems": [
    "Dgtd.NodalMaps.C44_mapB",
    "Dgtd.NodalMaps.C44_vmapB",
    "Dgtd.NodalMaps.C44_lookup",
    "Dgtd.NodalMaps.C44_interior"
   ],
   "note": ""
  },
  {
   "property": "C60",
   "status": "partial",
   "theorems": [
    "Dgtd.NodalMaps.C60_sub",
    "Dgtd.NodalMaps.C60_restore_partial",
    "Dgtd.NodalMaps.C60_violated"
   ],
   "note": "The overload for a face skips element zero."
  },
  {
   "property": "C86",
   "status": "proved",
   "theorems": [
    "Dgtd.NodalMaps.C86_row",
    "Dgtd.NodalMaps.C86_inner",
    "Dgtd.NodalMaps.C86_pairs"
   ],
   "note": "From the coupling matrix of the two elements."
  },
  {
   "property": "C41",
   "status": "proved",
   "theorems": [
    "Dgtd.Nodal.C41_tangential",
    "Dgtd.Nodal.C41_dissipative"
   ],
   "note": ""
  },
  {
   "property": "C42",
   "status": "proved",
   "theorems": [
    "Dgtd.Nodal.C42_conditions",
    "Dgtd.Nodal.C42_inside",
    "Dgtd.Nodal.C42_overlap",
    "Dgtd.Nodal.C42_others"
   ],
   "note": "Nodes of curved elements are skipped (they use the global operator)."
  },
  {
   "property": "C87",
   "status": "proved",
   "theorems": [
    "Dgtd.Nodal.C87_energy"
   ],
   "note": "Assumes that the element matrices satisfy summation by parts (exact integration) on the face nodes; linear elements."
  },
  {
   "property": "C88",
   "status": "partial",
   "theorems": [
    "Dgtd.Nodal.C88_threshold",
    "Dgtd.Nodal.C88_violated"
   ],
   "note": "True exactly for alpha at least one half."
  },
  {
   "property": "C89",
   "status": "partial",
   "theorems": [
    "Dgtd.Nodal.C89_absorbing_partial",
    "Dgtd.Nodal.C89_violated_face",
    "Dgtd.Nodal.C89_violated"
   ],
   "note": "False for conductors; for absorbing faces true exactly for alpha at least one."
  },
  {
   "property": "C90",
   "status": "proved",
   "theorems": [
    "Dgtd.Nodal.C90_correction",
    "Dgtd.Nodal.C90_transparent"
   ],
   "note": ""
  },
  {
   "property": "C91",
   "status": "partial",
   "theorems": [
    "Dgtd.SubMesh.C91_plane_partial",
    "Dgtd.SubMesh.C91_space_first",
    "Dgtd.SubMesh.C91_space_partial",
    "Dgtd.SubMesh.C91_violated_plane",
    "Dgtd.SubMesh.C91_violated_space"
   ],
   "note": "In the plane they agree when boundary elements list their vertices in the order of the face; in space when the second element is the one closer to the centre."
  },
  {
   "property": "C63",
   "status": "proved",
   "theorems": [
    "Dgtd.Movie.C63_first",
    "Dgtd.Movie.C63_max",
    "Dgtd.Movie.C63_min"
   ],
   "note": "Not-a-numbers are not modelled."
  },
  {
   "property": "C45",
   "status": "partial",
   "theorems": [
    "Dgtd.PoleFit.C45_stops",
    "Dgtd.PoleFit.C45_best",
    "Dgtd.PoleFit.C45_quality",
    "Dgtd.PoleFit.C45_violated"
   ],
   "note": "A fit made of not-a-numbers counts as stable and exact."
  },
  {
   "property": "C92",
   "status": "proved",
   "theorems": [
    "Dgtd.PoleFit.C92_row",
    "Dgtd.PoleFit.C92_poles"
   ],
   "note": "Exact arithmetic; solvers of the library idealised."
  },
  {
   "property": "C93",
   "status": "partial",
   "theorems": [
    "Dgtd.PoleFit.C93_single_partial",
    "Dgtd.PoleFit.C93_same_material_partial",
    "Dgtd.PoleFit.C93_violated"
   ],
   "note": "Only the first layer's material is used."
  },
  {
   "property": "C94",
   "status": "proved",
   "theorems": [
    "Dgtd.PoleFit.C94_ends",
    "Dgtd.PoleFit.C94_increasing"
   ],
   "note": "Real arithmetic."
  },
  {
   "property": "C95",
   "status": "partial",
   "theorems": [
    "Dgtd.Rcs.C95_same_wave_partial",
    "Dgtd.Rcs.C95_violated_downstream",
    "Dgtd.Rcs.C95_violated_several"
   ],
   "note": "True for a single wave whose mean is not downstream of the origin; otherwise the delay loses its sign, and carriers leak between waves."
  },
  {
   "property": "C96",
   "status": "proved",
   "theorems": [
    "Dgtd.Decimal.C96_round_trip",
    "Dgtd.Decimal.C96_injective"
   ],
   "note": "The characters of the text are not modelled, only sign, digits and exponent."
  },
  {
   "property": "C97",
   "status": "partial",
   "theorems": [
    "Dgtd.Decimal.C97_one_rank_partial",
    "Dgtd.Decimal.C97_violated"
   ],
   "note": "True on one rank; on several ranks the file of a snapshot is shared and the last writer wins."
  },
  {
   "property": "C98",
   "status": "partial",
   "theorems": [
    "Dgtd.Decimal.C98_printed_partial",
    "Dgtd.Decimal.C98_violated_printed",
    "Dgtd.Decimal.C98_frames_partial",
    "Dgtd.Decimal.C98_violated_frames"
   ],
   "note": "True for instants far enough apart; six digits and thousandths otherwise collide."
  },
  {
   "property": "C99",
   "status": "partial",
   "theorems": [
    "Dgtd.Decimal.C99_names_partial",
    "Dgtd.Decimal.C99_files_partial",
    "Dgtd.Decimal.C99_violated",
    "Dgtd.Decimal.C99_violated_files"
   ],
   "note": "True for angles more than a millionth apart."
  },
  {
   "property": "C100",
   "status": "proved",
   "theorems": [
    "Dgtd.ProbeFiles.C100_file",
    "Dgtd.ProbeCfg.C100_numbers"
   ],
   "note": "Exact values (their text is C98); writes are atomic lines."
  },
  {
   "property": "C101",
   "status": "partial",
   "theorems": [
    "Dgtd.ProbeFiles.C101_probes_partial",
    "Dgtd.ProbeFiles.C101_domain_partial",
    "Dgtd.ProbeFiles.C101_near_partial",
    "Dgtd.ProbeFiles.C101_near_apart",
    "Dgtd.ProbeFiles.C101_stale_near",
    "Dgtd.ProbeFiles.C101_stale_mor",
    "Dgtd.ProbeFiles.C101_violated",
    "Dgtd.ProbeFiles.C101_violated_mor"
   ],
   "note": "True for point, field and domain probes; far-field and reduction snapshots of earlier runs stay and are read."
  },
  {
   "property": "C102",
   "status": "partial",
   "theorems": [
    "Dgtd.ProbeFiles.C102_inside_partial",
    "Dgtd.ProbeFiles.C102_violated"
   ],
   "note": "Probes inside the mesh work; one outside reads element -1."
  },
  {
   "property": "C103",
   "status": "partial",
   "theorems": [
    "Dgtd.ProbeCfg.C103_steps_partial",
    "Dgtd.ProbeCfg.C103_saves_partial",
    "Dgtd.ProbeCfg.C103_read_partial",
    "Dgtd.ProbeCfg.C103_default_partial",
    "Dgtd.ProbeCfg.C103_violated_missing",
    "Dgtd.ProbeCfg.C103_violated_zero",
    "Dgtd.ProbeCfg.C103_violated_both"
   ],
   "note": "`saves` without `time_step` or `final_time` is undefined, zero `steps` divides by zero, `steps` is ignored next to `saves`."
  },
  {
   "property": "C104",
   "status": "partial",
   "theorems": [
    "Dgtd.ProbeCfg.C104_marker_partial",
    "Dgtd.ProbeCfg.C104_accepted_partial",
    "Dgtd.ProbeCfg.C104_violated_beyond",
    "Dgtd.ProbeCfg.C104_violated_absent"
   ],
   "note": "Tags of the mesh are marked exactly; others are written out of bounds or ignored."
  },
  {
   "property": "C105",
   "status": "partial",
   "theorems": [
    "Dgtd.Device.C105_cpu_device",
    "Dgtd.Device.C105_fields_partial",
    "Dgtd.Device.C105_layers_partial",
    "Dgtd.Device.C105_source_kernels_partial",
    "Dgtd.Device.C105_violated_sources",
    "Dgtd.Device.C105_violated_sources_witness",
    "Dgtd.Device.C105_violated_layers"
   ],
   "note": "Assembly, neighbour data and the operator agree under every schedule; plane waves written through operator[] are lost on the device, and thin layers read an old host copy."
  },
  {
   "property": "C106",
   "status": "partial",
   "theorems": [
    "Dgtd.Op.C106_split_partial",
    "Dgtd.Op.C106_split_one_sided_partial",
    "Dgtd.Op.C106_no_trace_partial",
    "Dgtd.Op.C106_violated_weak",
    "Dgtd.Op.C106_violated_weak_witness"
   ],
   "note": "Exact splitting on any mesh; waves whose nodal norm on the surface is below 1e-8 are not injected."
  },
  {
   "property": "C107",
   "status": "proved",
   "theorems": [
    "Dgtd.Op.C107_transparent"
   ],
   "note": "For layers with matching nodes where no element lies on the first side of one layer and the second side of another (C65 covers that case)."
  },
  {
   "property": "C108",
   "status": "partial",
   "theorems": [
    "Dgtd.Op.C108_first_side_partial",
    "Dgtd.Op.C108_second_side_partial",
    "Dgtd.Op.C108_conducting_partial",
    "Dgtd.Op.C108_violated_absorbing",
    "Dgtd.Op.C108_violated_absorbing_witness"
   ],
   "note": "Conducting surfaces are walls; absorbing surfaces exert no flux at all and can create energy."
  },
  {
   "property": "C109",
   "status": "partial",
   "theorems": [
    "Dgtd.SgbcInit.C109_states",
    "Dgtd.SgbcInit.C109_once_partial",
    "Dgtd.SgbcInit.C109_nodes_partial",
    "Dgtd.SgbcInit.C109_unlisted",
    "Dgtd.SgbcInit.C109_tasks",
    "Dgtd.SgbcInit.C109_copies_partial",
    "Dgtd.SgbcInit.C109_violated_repeated"
   ],
   "note": "True when no tag is listed twice; a tag in two definitions gets both sets of states and the solver of the last one, which can write past the end."
  },
  {
   "property": "C110",
   "status": "partial",
   "theorems": [
    "Dgtd.SgbcInit.C110_first_element",
    "Dgtd.SgbcInit.C110_same_side_partial",
    "Dgtd.SgbcInit.C110_frame",
    "Dgtd.SgbcInit.C110_violated"
   ],
   "note": "The first node is always in the lower-numbered element, so the direction of the layers follows the numbering; the frame is consistent with the pair."
  },
  {
   "property": "C111",
   "status": "proved",
   "theorems": [
    "Dgtd.SgbcInit.C111_elements",
    "Dgtd.SgbcInit.C111_lists",
    "Dgtd.SgbcInit.C111_ready"
   ],
   "note": "Element tables of discontinuous spaces."
  },
  {
   "property": "C112",
   "status": "partial",
   "theorems": [
    "Dgtd.SgbcInit.C112_line_partial",
    "Dgtd.SgbcInit.C112_ends_partial",
    "Dgtd.SgbcInit.C112_violated_numbering",
    "Dgtd.SgbcInit.C112_violated_single",
    "Dgtd.SgbcInit.C112_violated_exterior"
   ],
   "note": "True for lines of at least two elements numbered from left to right; otherwise wrong nodes, and in two and three dimensions exterior layers read out of bounds."
  },
  {
   "property": "C113",
   "status": "partial",
   "theorems": [
    "Dgtd.Op.C113_operators_agree_partial",
    "Dgtd.Op.C113_split_partial",
    "Dgtd.Op.C113_several",
    "Dgtd.Op.C113_violated_medium",
    "Dgtd.Op.C113_violated_several",
    "Dgtd.Op.C113_violated_weak"
   ],
   "note": "True for one wave, vacuum next to the surface, no conductivity and a source above the threshold; with other media or several waves the operators launch different waves (counter-examples proved)."
  },
  {
   "property": "C114",
   "status": "partial",
   "theorems": [
    "Dgtd.Spectral.C114_matrix_partial",
    "Dgtd.Spectral.C114_violated_centred"
   ],
   "note": "Equal for positive upwind blending; with centred fluxes the damping of absorbing faces is left out (counter-example proved)."
  },
  {
   "property": "C115",
   "status": "partial",
   "theorems": [
    "Dgtd.Spectral.C115_isolated_partial",
    "Dgtd.Spectral.C115_fluxes_reversed",
    "Dgtd.Spectral.C115_violated_growth"
   ],
   "note": "Equal for elements without conditions on their faces; otherwise all flux terms have the wrong sign, and a decaying element gets a growing mode."
  },
  {
   "property": "C116",
   "status": "partial",
   "theorems": [
    "Dgtd.Spectral.C116_highest",
    "Dgtd.Spectral.C116_solver_partial",
    "Dgtd.Spectral.C116_violated"
   ],
   "note": "True for the optimisation manager; the solver's function passes over every modulus above one."
  },
  {
   "property": "C117",
   "status": "partial",
   "theorems": [
    "Dgtd.Spectral.C117_off",
    "Dgtd.Spectral.C117_absorbing",
    "Dgtd.Spectral.C117_violated",
    "Dgtd.Spectral.C117_violated_null",
    "Dgtd.Spectral.C117_violated_stable",
    "Dgtd.Spectral.C117_violated_unstable"
   ],
   "note": "Without the option nothing changes; with it every case with elements uses a null pointer or raises an exception, and the check compares entries of an evolved vector of eigenvalues, which neither stable nor unstable systems respect."
  },
  {
   "property": "C118",
   "status": "proved",
   "theorems": [
    "Dgtd.TimeInt.C118_implicit_stable",
    "Dgtd.TimeInt.C118_energy",
    "Dgtd.TimeInt.C118_conserves",
    "Dgtd.TimeInt.C118_layers",
    "Dgtd.TimeInt.C118_constants"
   ],
   "note": "Real arithmetic, exact constants of the three-stage scheme (shown within 1e-23 of the decimals); the integrators are those of the library, written from its documentation; serial direct solve."
  },
  {
   "property": "C119",
   "status": "proved",
   "theorems": [
    "Dgtd.TimeInt.C119_bounded",
    "Dgtd.TimeInt.C119_explicit_stable",
    "Dgtd.TimeInt.C119_safe_step",
    "Dgtd.TimeInt.C119_conservative"
   ],
   "note": "Factor four in energy for step times bound at most a quarter, existence of the bound on every mesh."
  },
  {
   "property": "C120",
   "status": "partial",
   "theorems": [
    "Dgtd.TimeInt.C120_violated",
    "Dgtd.TimeInt.C119_explicit_stable"
   ],
   "note": "Violated: the automatic step ignores conductivity; a one-element lossy line grows by 25 per step. Bounded when the step respects C119."
  },
  {
   "property": "C121",
   "status": "partial",
   "theorems": [
    "Dgtd.TimeInt.C121_accepted",
    "Dgtd.TimeInt.C121_numbers",
    "Dgtd.TimeInt.C121_violated",
    "Dgtd.TimeInt.C121_works_partial"
   ],
   "note": "Violated: the maxwell and hesthaven operators accept implicit integrators and stop at the first step; all other combinations complete."
  },
  {
   "property": "C122",
   "status": "proved",
   "theorems": [
    "Dgtd.TimeInt.C122_solution",
    "Dgtd.TimeInt.C122_converges_implicit",
    "Dgtd.TimeInt.C122_converges_explicit",
    "Dgtd.TimeInt.C122_driven_implicit",
    "Dgtd.TimeInt.C122_driven_explicit",
    "Dgtd.TimeInt.C122_implicit",
    "Dgtd.TimeInt.C122_explicit",
    "Dgtd.TimeInt.C122_affine",
    "Dgtd.Par.C122_waves",
    "Dgtd.Par.C122_converges_waves"
   ],
   "note": "Orders against the exact solution of the semi-discrete equations, with any smooth sources; plane waves with the explicit integrator, on any number of ranks."
  },
  {
   "property": "C123",
   "status": "proved",
   "theorems": [
    "Dgtd.TimeInt.C123_damped"
   ],
   "note": ""
  },
  {
   "property": "C124",
   "status": "partial",
   "theorems": [
    "Dgtd.Par.C124_global_partial",
    "Dgtd.Par.C124_maxwell_partial",
    "Dgtd.Par.C124_stored_partial",
    "Dgtd.Par.C124_gather_partial"
   ],
   "note": "Missing: conditioned interior faces cut by a partition (decided inside the library's fork, which is not in the repository); thin layers are C164 (violated), plane-wave sources are C127."
  },
  {
   "property": "C125",
   "status": "partial",
   "theorems": [
    "Dgtd.Par.C125_run_partial",
    "Dgtd.Par.C125_run_maxwell_partial"
   ],
   "note": "Explicit integrator; same restrictions as C124, sources as contributions handed out to the ranks; with the skipping of weak waves see C128."
  },
  {
   "property": "C126",
   "status": "partial",
   "theorems": [
    "Dgtd.Par.C126_violated"
   ],
   "note": "Violated: the linear solver has no communicator, so every rank stops on its own residual."
  },
  {
   "property": "C127",
   "status": "partial",
   "theorems": [
    "Dgtd.Par.C127_launch",
    "Dgtd.Par.C127_one",
    "Dgtd.Par.C127_same",
    "Dgtd.Par.C127_violated"
   ],
   "note": "Violated as stated: the threshold is applied rank by rank (C127_violated). Proved: equality when the waves vanish or exceed 1e-8 on every rank, and in general up to values below 1e-8."
  },
  {
   "property": "C128",
   "status": "proved",
   "theorems": [
    "Dgtd.Par.C128_ranks",
    "Dgtd.Par.C128_one",
    "Dgtd.Par.C128_implicit"
   ],
   "note": "Explicit integrator on any number of ranks, steps within the bound of C119; implicit integrators on one rank, any steps; total-field faces not cut by the partition."
  },
  {
   "property": "C129",
   "status": "partial",
   "theorems": [
    "Dgtd.Nodal.C129_operator",
    "Dgtd.Nodal.C129_factor",
    "Dgtd.Nodal.C129_vacuum_partial",
    "Dgtd.Nodal.C129_waves",
    "Dgtd.Nodal.C129_run_partial",
    "Dgtd.Nodal.C129_run_waves_partial",
    "Dgtd.Nodal.C129_violated_permittivity",
    "Dgtd.Nodal.C129_violated_losses",
    "Dgtd.Nodal.C129_violated_absorbing",
    "Dgtd.Nodal.C129_violated_walls",
    "Dgtd.Nodal.C129_violated_quadrilaterals"
   ],
   "note": "Violated as stated by materials, losses, absorbing boundaries with alpha other than 1, walls inside the domain and quadrilaterals. Proved: C129_operator gives the exact relation on all meshes of linear elements; equality of equations and of explicit runs in vacuum on triangles and tetrahedra."
  },
  {
   "property": "C130",
   "status": "partial",
   "theorems": [
    "Dgtd.Nodal.C130_one_type",
    "Dgtd.Nodal.C130_sizes_partial",
    "Dgtd.Nodal.C130_lines",
    "Dgtd.Nodal.C130_mixed",
    "Dgtd.Nodal.C130_violated_hexahedra"
   ],
   "note": "Violated by hexahedra at every order at least 1; proved for the other types."
  },
  {
   "property": "C131",
   "status": "proved",
   "theorems": [
    "Dgtd.Frame.C131_operator",
    "Dgtd.Frame.C131_run",
    "Dgtd.Frame.C131_symmetric",
    "Dgtd.Frame.C131_energy"
   ],
   "note": "Global operator; meshes described by their faces, normals and shape values."
  },
  {
   "property": "C132",
   "status": "proved",
   "theorems": [
    "Dgtd.Frame.C132_operator",
    "Dgtd.Frame.C132_all",
    "Dgtd.Frame.C132_run"
   ],
   "note": "Global operator."
  },
  {
   "property": "C133",
   "status": "proved",
   "theorems": [
    "Dgtd.Local.C133_operator",
    "Dgtd.Local.C133_run"
   ],
   "note": "Global operator; explicit integrator for runs."
  },
  {
   "property": "C134",
   "status": "proved",
   "theorems": [
    "Dgtd.Local.C134_operator",
    "Dgtd.Local.C134_run",
    "Dgtd.Local.C134_shielded"
   ],
   "note": "Global operator."
  },
  {
   "property": "C135",
   "status": "proved",
   "theorems": [
    "Dgtd.Recip.C135_operator",
    "Dgtd.Recip.C135_run"
   ],
   "note": "Global operator; the conductivity matrix is symmetric."
  },
  {
   "property": "C136",
   "status": "partial",
   "theorems": [
    "Dgtd.Super.C136_run",
    "Dgtd.Super.C136_waves_partial",
    "Dgtd.Super.C136_implicit_partial",
    "Dgtd.Super.C136_violated"
   ],
   "note": "Violated for plane waves by the skipping threshold (C136_violated). Proved for given sources with all integrators; with plane waves up to the skipped values, for the explicit integrator within the bound of C119 and for implicit integrators with any steps."
  },
  {
   "property": "C137",
   "status": "proved",
   "theorems": [
    "Dgtd.Super.C137_implicit",
    "Dgtd.Super.C137_explicit"
   ],
   "note": "The constant depends on the mesh; the residual of interpolated continuous fields is a parameter."
  },
  {
   "property": "C138",
   "status": "partial",
   "theorems": [
    "Dgtd.Nodal.C138_lists",
    "Dgtd.Nodal.C138_tfsf",
    "Dgtd.Nodal.C138_rows",
    "Dgtd.Nodal.C138_waves",
    "Dgtd.Nodal.C138_operator_partial",
    "Dgtd.Nodal.C138_run_partial",
    "Dgtd.Nodal.C138_unseen",
    "Dgtd.Nodal.C138_scale_fails",
    "Dgtd.Nodal.C138_first_order_fails"
   ],
   "note": "Violated: curvature is detected from displacements of nodes above 1e-5, so it is missed in first order (C138_first_order_fails) and for small geometries (C138_scale_fails). Proved where the elements that pass for straight are straight; the restriction to vacuum, triangles and tetrahedra is that of C129."
  },
  {
   "property": "C139",
   "status": "partial",
   "theorems": [
    "Dgtd.Mode.C139_value",
    "Dgtd.Mode.C139_modes_fails",
    "Dgtd.Mode.C139_plane",
    "Dgtd.Mode.C139_line",
    "Dgtd.Mode.C139_space_fails",
    "Dgtd.Mode.C139_plane_fails",
    "Dgtd.Mode.C139_line_fails",
    "Dgtd.Mode.C139_zero_fails",
    "Dgtd.Mode.C139_box_fails",
    "Dgtd.Mode.C139_reference",
    "Dgtd.Mode.C139_reference_fails"
   ],
   "note": "Violated: with a number of modes other than that of coordinates a vector is read out of bounds; in three dimensions, and with a component in the plane or along the line, the field has a divergence and starts no solution; a mode number zero gives no field. Proved on a line and in the plane with polarisation across."
  },
  {
   "property": "C140",
   "status": "partial",
   "theorems": [
    "Dgtd.Mode.C140_value",
    "Dgtd.Mode.C140_reads_fails",
    "Dgtd.Mode.C140_split",
    "Dgtd.Mode.C140_ring",
    "Dgtd.Mode.C140_along_fails",
    "Dgtd.Mode.C140_plane_fails",
    "Dgtd.Mode.C140_space_fails"
   ],
   "note": "Violated: a centre shorter than the mesh's dimension, or a pulse of more dimensions than the mesh, is read out of bounds; a pulse polarised along its line or in its plane, and every pulse of three dimensions, has a divergence and starts no solution. Proved for pulses of one and two dimensions polarised across."
  },
  {
   "property": "C141",
   "status": "partial",
   "theorems": [
    "Dgtd.Galerkin.C141_integral",
    "Dgtd.Galerkin.C141_turns",
    "Dgtd.Galerkin.C141_sbp",
    "Dgtd.Galerkin.C141_balance",
    "Dgtd.Galerkin.C141_curved",
    "Dgtd.Galerkin.C141_exact_iff",
    "Dgtd.Galerkin.C141_energy",
    "Dgtd.Galerkin.C141_square_fails",
    "Dgtd.Galerkin.C141_grows_fails",
    "Dgtd.Galerkin.C141_cube_fails",
    "Dgtd.Galerkin.C141_cube_faces",
    "Dgtd.Galerkin.C141_cube_normals",
    "Dgtd.Galerkin.C141_mixed_fails"
   ],
   "note": "Proved for straight and curved simplices of every order. Violated: on curved quadrilaterals of the third order and curved hexahedra of the second order the volume quadrature is too coarse and the energy of some field grows; in a curved mesh of several kinds of elements the points of the first element's kind are used on all. Mass matrices enter as inputs; that MFEM's rules have the degree asked for is an assumption."
  },
  {
   "property": "C142",
   "status": "proved",
   "theorems": [
    "Dgtd.Galerkin.C142_assembled",
    "Dgtd.Galerkin.C142_stable",
    "Dgtd.Galerkin.C142_curved",
    "Dgtd.Galerkin.C142_implicit",
    "Dgtd.Galerkin.C142_explicit"
   ],
   "note": "Simplices, no thin layers. Assumed of MFEM: exactness of its rules, points of face rules inside the faces, independent shape functions, one element per degree of freedom; for curved elements and the time integrators also that the weights of the face rules are not negative. C142_stable (straight elements) needs no sign of the weights."
  },
  {
   "property": "C143",
   "status": "proved",
   "theorems": [
    "Dgtd.Galerkin.C143_exact",
    "Dgtd.Galerkin.C143_smooth",
    "Dgtd.Galerkin.C143_static"
   ],
   "note": "Simplices, no thin layers inside the mesh. On a segment the hypothesis of continuity is asked for instead of derived, because two meeting elements are compared through the faces' coordinates. Solutions that grow as a power of time do not exist without sources (C142), so of the polynomials in time only the static ones are stated. Assumptions on MFEM as in C142."
  },
  {
   "property": "C144",
   "status": "proved",
   "theorems": [
    "Dgtd.Galerkin.C144_solution",
    "Dgtd.Galerkin.C144_converges",
    "Dgtd.Galerkin.C144_implicit",
    "Dgtd.Galerkin.C144_explicit",
    "Dgtd.Galerkin.C144_nodes"
   ],
   "note": "Straight simplices, no thin layers, no sources other than initial fields. The fields are smooth up to the boundary of every element (their extension may differ between regions). Assumed of MFEM as in C142, and that the shape functions belong to nodes and span the polynomials. The constant C of the time steps in C144_implicit and C144_explicit may depend on the mesh, the spatial one does not. The order h^p is what consistency and stability give; C137 says how the runs follow the equations on the mesh."
  },
  {
   "property": "C145",
   "status": "proved",
   "theorems": [
    "Dgtd.Galerkin.C145_continuity",
    "Dgtd.Galerkin.C145_run",
    "Dgtd.Galerkin.C145_held",
    "Dgtd.Galerkin.C145_straight"
   ],
   "note": "Simplices, no thin layers inside the mesh (thin layers on the outer boundary hold charge). Charge is the weak divergence against continuous test functions; the divergence inside single elements is not conserved by the scheme. Assumptions on MFEM as in C142, including that the weights of the face rules are not negative."
  },
  {
   "property": "C146",
   "status": "proved",
   "theorems": [
    "Dgtd.Straight.C146_assembled",
    "Dgtd.Straight.C146_stable",
    "Dgtd.Straight.C146_implicit",
    "Dgtd.Straight.C146_explicit",
    "Dgtd.Straight.C146_turns",
    "Dgtd.Straight.C146_product"
   ],
   "note": "Positions of order one, no thin layers, no prisms or pyramids. Assumed of MFEM: default quadrature order of the derivative integrator on a straight mesh (2p-1 on simplices, 2p+dim on squares and cubes), exact quadratures with weights that are not negative on faces. C146_turns and C146_product show that the placements and quadratures the hypotheses ask for exist. For curved quadrilaterals and hexahedra see the counter-examples of C141."
  },
  {
   "property": "C147",
   "status": "partial",
   "theorems": [
    "Dgtd.PoleFit.C147_poles",
    "Dgtd.PoleFit.C147_recovered_partial",
    "Dgtd.PoleFit.C147_search_partial",
    "Dgtd.PoleFit.C147_resistance_fails"
   ],
   "note": "Proved for impedances that vanish at infinity. The code violates the property for impedances with a value at infinity (a series resistance): the first system has it, the partial fractions drop it, so the fit found is not the circuit whatever the residues (C147_resistance_fails). Eigen's least squares and eigenvalues are assumed exact; floating point is not modelled."
  },
  {
   "property": "C148",
   "status": "proved",
   "theorems": [
    "Dgtd.PoleFit.C148_formula",
    "Dgtd.PoleFit.C148_passive",
    "Dgtd.PoleFit.C148_resistance"
   ],
   "note": "The square roots are the principal ones, as std::sqrt. Floating point is not modelled."
  },
  {
   "property": "C149",
   "status": "partial",
   "theorems": [
    "Dgtd.Galerkin.C149_rate",
    "Dgtd.Galerkin.C149_stable",
    "Dgtd.Galerkin.C149_automatic_partial",
    "Dgtd.Galerkin.C149_violated_conductors"
   ],
   "note": "Proved with a CFL number that exists and does not depend on the mesh; the default CFL of 1 is not small enough at order one (C158); for other orders the constants of the inverse inequalities are not computed. The code violates the last sentence: the automatic step does not look at the conductivity, and in a good conductor a uniform field that should die out grows without bound (C149_violated_conductors). The rule of the nodal operator in three dimensions is not covered."
  },
  {
   "property": "C150",
   "status": "proved",
   "theorems": [
    "Dgtd.Galerkin.C150_implicit",
    "Dgtd.Galerkin.C150_explicit",
    "Dgtd.Galerkin.C150_converges_implicit",
    "Dgtd.Galerkin.C150_converges_explicit"
   ],
   "note": "Without sources, on straight simplices, in exact arithmetic. The solution has bounded derivatives in time up to two more than the order of the integrator (explicit: six)."
  },
  {
   "property": "C151",
   "status": "proved",
   "theorems": [
    "Dgtd.Simulate.C151_trace",
    "Dgtd.Simulate.C151_implicit",
    "Dgtd.Simulate.C151_explicit",
    "Dgtd.Simulate.C151_automatic"
   ],
   "note": "Without sources and thin layers, one process, global operator, straight simplices, exact arithmetic. The bound on the CFL number exists and is independent of the mesh but is not computed."
  },
  {
   "property": "C152",
   "status": "proved",
   "theorems": [
    "Dgtd.Simulate.C152_implicit",
    "Dgtd.Simulate.C152_automatic",
    "Dgtd.Simulate.C152_converges"
   ],
   "note": "Same scope as C151. The rate is the one the energy bound gives with an inverse inequality, half the dimension below the optimal one."
  },
  {
   "property": "C153",
   "status": "proved",
   "theorems": [
    "Dgtd.Galerkin.C153_solution",
    "Dgtd.Galerkin.C153_explicit",
    "Dgtd.Galerkin.C153_ranks",
    "Dgtd.Galerkin.C153_implicit"
   ],
   "note": "Straight simplices; explicit integrator on any number of ranks, implicit integrators on one; global operator, exact arithmetic. The constant of the error in time depends on the mesh: sources on faces are not smooth in space, and a bound uniform in the mesh is not claimed. The limit of the step is not computed."
  },
  {
   "property": "C154",
   "status": "partial",
   "theorems": [
    "Dgtd.Coll.C154_explicit",
    "Dgtd.Coll.C154_implicit_partial",
    "Dgtd.Coll.C154_results",
    "Dgtd.Coll.C154_delay",
    "Dgtd.Coll.C154_implicit_fails",
    "Dgtd.Coll.C154_rejected"
   ],
   "note": "Calls of the code itself and the exchanges of the operator; calls inside MFEM's construction of spaces and meshes are taken as uniform. Violated by implicit integrators when neighbours need different numbers of products (C154_implicit_fails, with C126), and by invalid options, which only rank zero checks (C154_rejected)."
  },
  {
   "property": "C155",
   "status": "partial",
   "theorems": [
    "Dgtd.MeshRead.C155_last_partial",
    "Dgtd.MeshRead.C155_once",
    "Dgtd.MeshRead.C155_root",
    "Dgtd.MeshRead.C155_violated"
   ],
   "note": "Violated by the first of two readings: rank zero rewrites the file for the second without waiting for the others (C155_violated, for every Gmsh mesh and every other rank). The last reading is whole on all ranks, as is the only one when the case has no boundaries or no materials."
  },
  {
   "property": "C156",
   "status": "partial",
   "theorems": [
    "Dgtd.MeshRead.C156_partial",
    "Dgtd.MeshRead.C156_untouched",
    "Dgtd.MeshRead.C156_violated"
   ],
   "note": "Violated for every Gmsh mesh with elements: the file is emptied and written in place (C156_violated). Files that need no rewriting are never touched."
  },
  {
   "property": "C157",
   "status": "partial",
   "theorems": [
    "Dgtd.Export.C157_product_partial",
    "Dgtd.Export.C157_rates_partial",
    "Dgtd.Export.C157_ranks",
    "Dgtd.Export.C157_violated",
    "Dgtd.Export.C157_snapshot_violated"
   ],
   "note": "Violated: the values of the operator are written with the six digits of a default stream, so the matrix read back is another one (C157_violated); and the snapshot has the instant on its first line, not the number of values the documentation says (C157_snapshot_violated). On several ranks nothing is written."
  },
  {
   "property": "C158",
   "status": "partial",
   "theorems": [
    "Dgtd.Galerkin.C158_violated_line",
    "Dgtd.Galerkin.C158_violated_triangles",
    "Dgtd.Galerkin.C149_automatic_partial"
   ],
   "note": "Violated at order one with the default values: a disturbance of any size in a closed metallic box grows by a factor 31 (segments) or 5 (triangles) at every step, at least 11/8 as soon as CFL number times upwind parameter reaches one half (three quarters). With a small enough CFL number the fields stay bounded (C149). Other orders are not decided."
  },
  {
   "property": "C159",
   "status": "partial",
   "theorems": [
    "Dgtd.Gmres.C159_outcome",
    "Dgtd.Gmres.C159_never_worse",
    "Dgtd.Gmres.C159_accuracy",
    "Dgtd.Gmres.C159_run",
    "Dgtd.Gmres.C159_small_step_partial",
    "Dgtd.Gmres.C159_moderate_step_partial",
    "Dgtd.Gmres.C159_violated",
    "Dgtd.Gmres.C159_memory_fails"
   ],
   "note": "The solve has one outcome, never leaves more of the equation than it found, and the run is within ten times elapsed time times worst residual of the direct one. The tolerance is met for steps up to 0.95 (3, where the operator loses in the plain norm) times the inverse of the operator's norm. Violated beyond: C159_violated (a step of 250 crossing times of a cell, 803 cells, iterations spent, answer used) and C159_memory_fails (fields at rest are given a rate that depends without bound on uninitialised memory). Norms of the distributed solve (taken per rank by the library) are not modelled."
  },
  {
   "property": "C160",
   "status": "proved",
   "theorems": [
    "Dgtd.Straight.C160_exact",
    "Dgtd.Straight.C160_held",
    "Dgtd.Straight.C160_smooth",
    "Dgtd.Straight.C160_static"
   ],
   "note": "Positions of order one, no thin layers inside the mesh, no prisms or pyramids. Assumptions on MFEM as in C146; for C160_held that the shape functions belong to nodes and span the polynomials of their order. On a segment the hypothesis of continuity is asked for instead of derived."
  },
  {
   "property": "C161",
   "status": "proved",
   "theorems": [
    "Dgtd.Straight.C161_solution",
    "Dgtd.Straight.C161_converges",
    "Dgtd.Straight.C161_implicit",
    "Dgtd.Straight.C161_explicit",
    "Dgtd.Straight.C161_nodes"
   ],
   "note": "Positions of order one, no thin layers, no sources other than initial fields, no prisms or pyramids. Assumptions on MFEM as in C146 and C160. Derivatives are bounded on the convex hull of each element (a twisted hexahedron need not be convex). The constant C of the time steps may depend on the mesh, the spatial one does not."
  },
  {
   "property": "C162",
   "status": "proved",
   "theorems": [
    "Dgtd.NodalFem.C162_same",
    "Dgtd.NodalFem.C162_run",
    "Dgtd.NodalFem.C162_error",
    "Dgtd.NodalFem.C162_converges"
   ],
   "note": "Vacuum only: the nodal operator ignores permittivities, permeabilities and conductivities (C129_violated_permittivity). No conditions on inner faces, no thin layers, no curved elements, no sources, one process, exact arithmetic. Assumed of MFEM: quadratures exact for products of shape functions, the shape functions of nodes off a face vanish on it, connectivity pairs nodes at the same place (C86 says how it is built)."
  },
  {
   "property": "C163",
   "status": "partial",
   "theorems": [
    "Dgtd.SgbcReport.C163_verdict",
    "Dgtd.SgbcReport.C163_first_partial",
    "Dgtd.SgbcReport.C163_violated",
    "Dgtd.SgbcReport.C163_steps_never",
    "Dgtd.SgbcReport.C163_steps_violated"
   ],
   "note": "Violated: only the layers of the first wrapper built in a process are examined (C163_violated: a severely coarse layer after a fine one), and the warning on long steps can never appear because it compares the sub-steps, which are never longer than recommended (C163_steps_never, C163_steps_violated). What is said on the layers of the first wrapper is right."
  },
  {
   "property": "C164",
   "status": "partial",
   "theorems": [
    "Dgtd.SgbcEvol.C164_run_partial",
    "Dgtd.SgbcEvol.C164_violated_rate",
    "Dgtd.SgbcEvol.C164_violated_fields"
   ],
   "note": "Violated: the test that skips quiet layers is made rank by rank, so a layer below the threshold of 1e-8 enters the rate of change and goes on in time if another layer of the same rank is loud, and does neither if it is alone on its rank (two witnesses). Proved for runs of any length in which every layer is above the threshold or vanishes, without plane-wave sources, with both sides of a layer on the same rank."
  },
  {
   "property": "C165",
   "status": "partial",
   "theorems": [
    "Dgtd.FloatClock.C165_returns_iff",
    "Dgtd.FloatClock.C165_ends_partial",
    "Dgtd.FloatClock.C165_long_runs_never_end",
    "Dgtd.FloatClock.C165_violated"
   ],
   "note": "Violated: beyond some hundred million steps the slack of 1e-8 steps is lost in rounding the final time, the clock stands at the final time with steps of length zero and the loop never ends. The exact condition is proved (C165_returns_iff); runs of up to 2^25 steps end, runs of more than 2^29 never do. Overflow and underflow are not modelled."
  },
  {
   "property": "C166",
   "status": "partial",
   "theorems": [
    "Dgtd.Nodal.C166_connectivity",
    "Dgtd.Nodal.C166_tables_partial",
    "Dgtd.Nodal.C166_same",
    "Dgtd.Nodal.C166_surface",
    "Dgtd.Nodal.C166_no_outer",
    "Dgtd.Nodal.C166_quadrilaterals",
    "Dgtd.Nodal.C166_triangles",
    "Dgtd.Nodal.C166_simplices",
    "Dgtd.Nodal.C166_simplices_listed",
    "Dgtd.Nodal.C166_boxes",
    "Dgtd.Nodal.C166_boxes_listed",
    "Dgtd.Nodal.C166_violated_order_zero"
   ],
   "note": "Violated for elements of order zero: all faces have the same single node, so every condition is put on the first face of the element, possibly one inside (C166_violated_order_zero). Proved for all meshes whose reference faces have different node sets with a node in common with the next face (shown for triangles, quadrilaterals, tetrahedra and hexahedra of all orders from one on, however their nodes are numbered) and whose face mass matrix separates the nodes by 1e-6; two elements share at most one face. A mesh without a boundary element on the outer boundary throws (C166_no_outer)."
  },
  {
   "property": "C167",
   "status": "proved",
   "theorems": [
    "Dgtd.Straight.C167_continuity",
    "Dgtd.Straight.C167_run",
    "Dgtd.Straight.C167_held",
    "Dgtd.Straight.C167_complete"
   ],
   "note": "Positions of order one, no thin layers inside the mesh, no prisms or pyramids. Charge is the weak divergence against continuous test functions. Assumptions on MFEM as in C146, including that the weights of the face rules are not negative; for C167_held that the shape functions span the polynomials of their order."
  },
  {
   "property": "C168",
   "status": "partial",
   "theorems": [
    "Dgtd.ChildBdr.C168_attributes",
    "Dgtd.ChildBdr.C168_faces",
    "Dgtd.ChildBdr.C168_surface_partial",
    "Dgtd.ChildBdr.C168_violated"
   ],
   "note": "Violated when another boundary next to the surface has the tag 201, which the code uses for the surface on the sub-mesh: it is integrated over too (C168_faces gives exactly what is integrated over, C168_violated a witness). Proved when no other boundary has that tag and MFEM's attribute for the cut is another one. Faces of the surface that are not boundaries of the sub-mesh are outside of the statement."
  },
  {
   "property": "C169",
   "status": "partial",
   "theorems": [
    "Dgtd.NodeNormal.C169_nearest",
    "Dgtd.NodeNormal.C169_straight_partial",
    "Dgtd.NodeNormal.C169_node_in_rule",
    "Dgtd.NodeNormal.C169_error",
    "Dgtd.NodeNormal.C169_violated"
   ],
   "note": "Violated on curved faces: the code takes the normal at the nearest point of a Gauss rule, which the nodes at the ends of a face never are (C169_violated, for every such rule). Exact on straight faces; on curved ones the error is bounded by how much the normal varies between node and nearest point."
  },
  {
   "property": "C170",
   "status": "proved",
   "theorems": [
    "Dgtd.Reverse.C170_operator",
    "Dgtd.Reverse.C170_run",
    "Dgtd.Reverse.C170_solution",
    "Dgtd.Reverse.C170_lost",
    "Dgtd.Reverse.C170_violated"
   ],
   "note": "C170_operator: reversing the magnetic field reverses the rate; C170_run: the midpoint and trapezoidal runs are undone exactly, with sources; C170_solution: the same for solutions exact in time; C170_lost: runs that lost energy do not come back, with any implicit integrator; C170_violated: upwinding, absorbing ends and conductivity each break the symmetry of the operator."
  },
  {
   "property": "C171",
   "status": "proved",
   "theorems": [
    "Dgtd.Dual.C171_operator",
    "Dgtd.Dual.C171_run",
    "Dgtd.Dual.C171_energy",
    "Dgtd.Dual.C171_passive",
    "Dgtd.Dual.C171_violated"
   ],
   "note": "Global operator. C171_violated: with conductors there is no such exchange, since the code has no magnetic conductivity."
  },
  {
   "property": "C172",
   "status": "proved",
   "theorems": [
    "Dgtd.Scale.C172_operator",
    "Dgtd.Scale.C172_run",
    "Dgtd.Scale.C172_passive",
    "Dgtd.Scale.C172_step"
   ],
   "note": "In exact arithmetic; entries of the operator below 1e-20 and plane waves below the threshold of C128 are dropped by absolute size. The nodal operator looks for curvature with an absolute tolerance and does depend on the unit (C138_scale_fails)."
  },
  {
   "property": "C173",
   "status": "proved",
   "theorems": [
    "Dgtd.Image.C173_operator",
    "Dgtd.Image.C173_run",
    "Dgtd.Image.C173_energy",
    "Dgtd.Image.C173_passive",
    "Dgtd.Image.C173_absorbing_fails"
   ],
   "note": "Global operator, without plane-wave sources other than as given source terms. C173_absorbing_fails: a first-order absorbing wall stands for no such symmetry."
  },
  {
   "property": "C174",
   "status": "proved",
   "theorems": [
    "Dgtd.Power.C174_balance",
    "Dgtd.Power.C174_exchange",
    "Dgtd.Power.C174_poynting",
    "Dgtd.Power.C174_parts",
    "Dgtd.Power.C174_rate"
   ],
   "note": "Global operator, in continuous time; meshes without thin layers and with exact quadrature as in C01."
  },
  {
   "property": "C175",
   "status": "proved",
   "theorems": [
    "Dgtd.Galerkin.C175_still",
    "Dgtd.Galerkin.C175_run",
    "Dgtd.Straight.C175_still",
    "Dgtd.Straight.C175_run"
   ],
   "note": "Global operator. C145_held and C167_held say which potentials have gradients that the elements can hold."
  },
  {
   "property": "C176",
   "status": "proved",
   "theorems": [
    "Dgtd.Stats.C176_files",
    "Dgtd.Stats.C176_modes",
    "Dgtd.Stats.C176_stopped",
    "Dgtd.Stats.C176_totals"
   ],
   "note": "Blocks are written whole; values as numbers, not as printed; opening a file succeeds; MPI ranks share a file system. 'Number of Mesh Elements' is that of the rank in spite of its name; C176_totals says how the mesh's is obtained."
  },
  {
   "property": "C177",
   "status": "proved",
   "theorems": [
    "Dgtd.Modes.C177_growth",
    "Dgtd.Modes.C177_pure",
    "Dgtd.Modes.C177_neutral",
    "Dgtd.Modes.C177_orthogonal",
    "Dgtd.Modes.C177_solution",
    "Dgtd.Modes.C177_matrix"
   ],
   "note": "Modes are eigenvectors of the assembled operator over the complex numbers (Spec/OpModes.lean). The example exhibits a standing wave of the two-element line between perfect conductors, of angular frequency 2 sqrt 3, and a static field."
  },
  {
   "property": "C178",
   "status": "proved",
   "theorems": [
    "Dgtd.Account.C178_recorded",
    "Dgtd.Account.C178_region",
    "Dgtd.Account.C178_total",
    "Dgtd.Account.C178_heat"
   ],
   "note": "Global operator without thin layers, exact arithmetic; the three integrators named, not the SDIRK schemes or RK4."
  },
  {
   "property": "C179",
   "status": "proved",
   "theorems": [
    "Dgtd.SurfaceDirs.C179_reads",
    "Dgtd.SurfaceDirs.C179_request",
    "Dgtd.SurfaceDirs.C179_files",
    "Dgtd.SurfaceDirs.C179_order",
    "Dgtd.SurfaceDirs.C179_results",
    "Dgtd.SurfaceDirs.C179_stopped_violated"
   ],
   "note": "For runs that come to their end. C179_stopped_violated shows that a run stopped while the ranks open their files leaves folders of two runs, which the post-processor takes together without noticing."
  },
  {
   "property": "C180",
   "status": "partial",
   "theorems": [
    "Dgtd.SurfaceDirs.C180_partial",
    "Dgtd.SurfaceDirs.C180_violated",
    "Dgtd.SurfaceDirs.C180_exact_partial"
   ],
   "note": "C180_violated: a rank whose part of the mesh has no face of the surface throws, whatever the rest of the case."
  },
  {
   "property": "C181",
   "status": "proved",
   "theorems": [
    "Dgtd.SurfaceRun.C181_ranks"
   ],
   "note": "Joins C179 (what is read) and C48 (how it is summed). That ranks have their part of the fields of the problem is C125."
  },
  {
   "property": "C182",
   "status": "proved",
   "theorems": [
    "Dgtd.Spectra.C182_converges",
    "Dgtd.Spectra.C182_limit",
    "Dgtd.Spectra.C182_instants",
    "Dgtd.Spectra.C182_run"
   ],
   "note": "C182_converges and C182_limit are for any nearly even list of instants; C182_instants shows that the records of a run are such a list for steps of at least 1e-8 units of time (below, the loop stops early, see C01); C182_run joins them. Arithmetic is exact."
  },
  {
   "property": "C183",
   "status": "proved",
   "theorems": [
    "Dgtd.Partition.C183_report",
    "Dgtd.Partition.C183_silent"
   ],
   "note": "Exact arithmetic; the rounding of the printed numbers to one decimal is not modelled. A face whose tag is listed twice is counted twice."
  },
  {
   "property": "C184",
   "status": "partial",
   "theorems": [
    "Dgtd.Renumber.C184_case_partial",
    "Dgtd.Renumber.C184_surfaces_partial",
    "Dgtd.Renumber.C184_regions_partial",
    "Dgtd.Renumber.C184_nodal_partial",
    "Dgtd.Renumber.C184_violated"
   ],
   "note": "Proved for groups with a material and numbers the code does not use itself (777, 1000, 2000, 3000, 4000); false otherwise (C184_violated: three witnesses)"
  },
  {
   "property": "C185",
   "status": "partial",
   "theorems": [
    "Dgtd.EntryOrder.C185_case_partial",
    "Dgtd.EntryOrder.C185_surfaces_partial",
    "Dgtd.EntryOrder.C185_incident_partial",
    "Dgtd.EntryOrder.C185_violated",
    "Dgtd.Sources.C33_order"
   ],
   "note": "Proved when entries for the same group agree and all incident fields enter through the same groups, for the global and nodal operators; false otherwise (C185_violated: conflicting entries, incident fields on different groups, two incident fields with the operator maxwell)"
  },
  {
   "property": "C186",
   "status": "proved",
   "theorems": [
    "Dgtd.Watch.C186_watch",
    "Dgtd.Watch.C186_layers"
   ],
   "note": "Without thin layers for all integrators, with them for the explicit one. Probes with interval zero or outside the mesh are those of C08, C102 and C103"
  },
  {
   "property": "C187",
   "status": "proved",
   "theorems": [
    "Dgtd.Longer.C187_longer",
    "Dgtd.Longer.C187_layers"
   ],
   "note": "For probes with intervals given in steps; a number of saves is by definition spread over the whole run. With thin layers for the explicit integrator."
  },
  {
   "property": "C188",
   "status": "proved",
   "theorems": [
    "Dgtd.AtRest.C188_empty"
   ],
   "note": "Explicit integrator, with or without thin layers."
  },
  {
   "property": "C189",
   "status": "proved",
   "theorems": [
    "Dgtd.Memory.C189_no_memory"
   ],
   "note": "Explicit integrator; the inner integrators are functions of fields, time and step (C25_inner_integrator, C31)."
  },
  {
   "property": "C190",
   "status": "proved",
   "theorems": [
    "Dgtd.NoLayers.C190_no_layers"
   ],
   "note": "One rank, no incident field; the explicit integrator is classical Runge-Kutta."
  },
  {
   "property": "C191",
   "status": "proved",
   "theorems": [
    "Dgtd.LayerStep.C191_layer_step"
   ],
   "note": "Serial task loop; C26 shows that the parallel one gives the same. The example is in Props/Finish."
  },
  {
   "property": "C192",
   "status": "proved",
   "theorems": [
    "Dgtd.Finish.C192_finishes"
   ],
   "note": "Exact arithmetic; the probes are those of Model/Simulate."
  },
  {
   "property": "C193",
   "status": "partial",
   "theorems": [
    "Dgtd.Drop.C193_rates",
    "Dgtd.Drop.C193_exact",
    "Dgtd.Drop.C193_run",
    "Dgtd.Drop.C193_constant",
    "Dgtd.Drop.C193_violated"
   ],
   "note": "The bounds hold for every problem; independence of the unit of length is violated: the threshold is absolute, and every problem has a unit in which the whole operator is dropped."
  },
  {
   "property": "C194",
   "status": "partial",
   "theorems": [
    "Dgtd.Drop.C194_ranks_partial",
    "Dgtd.Drop.C194_run_partial"
   ],
   "note": "Missing, as for C124: conditioned interior faces cut by a partition, which are decided inside the library's fork."
  }
 ]
}