{
 "claims": [
  {
   "property": "C01",
   "status": "proved",
   "theorems": [
    "AmrWind.SimTime.enforced_dt_spec"
   ],
   "note": ""
  },
  {
   "property": "C02",
   "status": "proved",
   "theorems": [
    "AmrWind.SimTime.adaptive_step_respects_cfl",
    "AmrWind.SimTime.adaptive_step_respects_cfl_real",
    "AmrWind.SimTime.startup_step_cfl",
    "AmrWind.SimTime.reported_cfl_of_accepted_step"
   ],
   "note": "outside the delay window, as the property says; the start-up case has its own bound"
  },
  {
   "property": "C03",
   "status": "proved",
   "theorems": [
    "AmrWind.SimTime.adaptive_never_passes_stop_time",
    "AmrWind.SimTime.fixed_overshoot_lt_dt"
   ],
   "note": ""
  },
  {
   "property": "C04",
   "status": "proved",
   "theorems": [
    "AmrWind.SimTime.step_growth_bounded",
    "AmrWind.SimTime.step_growth_compounded"
   ],
   "note": ""
  },
  {
   "property": "C05",
   "status": "partial",
   "theorems": [
    "AmrWind.SimTime.min_dt_abort_iff_cfl_partial",
    "AmrWind.SimTime.min_dt_abort_iff",
    "AmrWind.SimTime.min_dt_abort_not_only_cfl"
   ],
   "note": "false in general: the growth limit after an output-shortened step triggers the abort (witness proved)"
  },
  {
   "property": "C06",
   "status": "partial",
   "theorems": [
    "AmrWind.SimTime.loop_bookkeeping",
    "AmrWind.SimTime.adaptive_time_increases_partial",
    "AmrWind.SimTime.time_is_sum_of_steps",
    "AmrWind.SimTime.delay_without_initial_dt_goes_backwards"
   ],
   "note": "bookkeeping holds always; positivity fails with delay_time>0 and initial_dt unset (proved)"
  },
  {
   "property": "C07",
   "status": "proved",
   "theorems": [
    "AmrWind.SimTime.max_step_bounds_run",
    "AmrWind.SimTime.max_step_reached",
    "AmrWind.SimTime.stop_time_bounds_run",
    "AmrWind.SimTime.max_step_zero_no_steps",
    "AmrWind.SimTime.no_criterion_never_stops"
   ],
   "note": ""
  },
  {
   "property": "C08",
   "status": "partial",
   "theorems": [
    "AmrWind.SimTime.plot_step_schedule",
    "AmrWind.SimTime.checkpoint_step_schedule",
    "AmrWind.SimTime.plot_files_once_and_final_partial",
    "AmrWind.SimTime.checkpoint_files_once_and_final_partial",
    "AmrWind.SimTime.final_plot_missing_before_delay"
   ],
   "note": "schedule proved; the final file is missing when the run ends before the delay (witness proved)"
  },
  {
   "property": "C09",
   "status": "partial",
   "theorems": [
    "AmrWind.SimTime.plot_time_schedule",
    "AmrWind.SimTime.checkpoint_time_schedule",
    "AmrWind.SimTime.time_targets_exactly_once_partial",
    "AmrWind.SimTime.fixed_step_tolerance_constant",
    "AmrWind.SimTime.varying_dt_misses_target"
   ],
   "note": "false for varying steps with the dt-relative tolerance (witness proved)"
  },
  {
   "property": "C10",
   "status": "partial",
   "theorems": [
    "AmrWind.SimTime.enforced_time_not_jumped",
    "AmrWind.SimTime.shortened_only_for_a_reason",
    "AmrWind.SimTime.enforced_plot_written_partial",
    "AmrWind.SimTime.enforced_plot_skipped_after_restart"
   ],
   "note": "false after a restart at a time that is not a multiple of the interval (witness proved)"
  },
  {
   "property": "C11",
   "status": "proved",
   "theorems": [
    "AmrWind.SimTime.regrid_schedule",
    "AmrWind.SimTime.regrid_count"
   ],
   "note": ""
  },
  {
   "property": "C12",
   "status": "proved",
   "theorems": [
    "AmrWind.PostProc.output_now_iff",
    "AmrWind.PostProc.post_output_once_and_final"
   ],
   "note": "for runs with at least one step; the zero-step run is C52"
  },
  {
   "property": "C13",
   "status": "proved",
   "theorems": [
    "AmrWind.SimTime.parse_accepts_iff_valid",
    "AmrWind.SimTime.parse_result",
    "AmrWind.PostProc.accepted_one_kind",
    "AmrWind.PostProc.post_rejected_iff",
    "AmrWind.SimTime.min_tol_le_enforced"
   ],
   "note": ""
  },
  {
   "property": "C52",
   "status": "partial",
   "theorems": [
    "AmrWind.PostProc.initial_output_depends_on_step_mode",
    "AmrWind.PostProc.zero_step_run_writes_nothing"
   ],
   "note": "the property is false of the code; both theorems are refutations"
  },
  {
   "property": "C14",
   "status": "proved",
   "theorems": [
    "AmrWind.FieldRepo.registry_consistent",
    "AmrWind.FieldRepo.fields_persist",
    "AmrWind.FieldRepo.declare_new_succeeds",
    "AmrWind.FieldRepo.declare_zero_states_corrupts"
   ],
   "note": "for declarations with at least one time state; with zero states the property is false (witness proved)"
  },
  {
   "property": "C15",
   "status": "partial",
   "theorems": [
    "AmrWind.FieldRepo.redeclare",
    "AmrWind.FieldRepo.reserved_names_partial",
    "AmrWind.FieldRepo.too_many_states",
    "AmrWind.FieldRepo.reserved_name_accepted",
    "AmrWind.FieldRepo.redeclare_ngrow_ignored"
   ],
   "note": "a reserved name that spells an existing time state is accepted (witness proved)"
  },
  {
   "property": "C16",
   "status": "proved",
   "theorems": [
    "AmrWind.FieldRepo.advance_shifts_history",
    "AmrWind.FieldRepo.history_after_steps"
   ],
   "note": ""
  },
  {
   "property": "C17",
   "status": "partial",
   "theorems": [
    "AmrWind.MeshMapping.uniform_then_stretched",
    "AmrWind.MeshMapping.stretched_then_uniform",
    "AmrWind.MeshMapping.repeated_call_warns",
    "AmrWind.MeshMapping.non_vector_aborts",
    "AmrWind.MeshMapping.flag_tracks_space",
    "AmrWind.MeshMapping.copy_keeps_flag_meaning_partial",
    "AmrWind.MeshMapping.copy_loses_flag",
    "AmrWind.MeshMapping.too_many_components_out_of_range"
   ],
   "note": "the transforms are inverse and the flag is right for any call sequence; copying between time states does not copy the flag, and fields with more than 3 components index out of range (both proved)"
  },
  {
   "property": "C18",
   "status": "proved",
   "theorems": [
    "AmrWind.Interp.searches_stay_in_table",
    "AmrWind.Interp.bisection_brackets",
    "AmrWind.Interp.findIndex_eq_bisection",
    "AmrWind.Interp.nearest_is_nearest"
   ],
   "note": ""
  },
  {
   "property": "C19",
   "status": "proved",
   "theorems": [
    "AmrWind.Interp.linear_bounded",
    "AmrWind.Interp.linear_at_node",
    "AmrWind.Interp.linear_affine",
    "AmrWind.Interp.linear_monotone",
    "AmrWind.Interp.linear_short_table",
    "AmrWind.Interp.linear_node_fails_tiny_spacing",
    "AmrWind.Interp.eps_value"
   ],
   "note": "node exactness and affine reproduction need a spacing above single-precision epsilon (counterexample otherwise proved)"
  },
  {
   "property": "C20",
   "status": "proved",
   "theorems": [
    "AmrWind.Interp.linear_monotonic_eq_linear",
    "AmrWind.Interp.linear_monotonic_unsorted_differs"
   ],
   "note": ""
  },
  {
   "property": "C21",
   "status": "proved",
   "theorems": [
    "AmrWind.Interp.angleDiff_spec",
    "AmrWind.Interp.angleDiff_shortest",
    "AmrWind.Interp.linear_angle_short_way",
    "AmrWind.Interp.linear_angle_at_node"
   ],
   "note": ""
  },
  {
   "property": "C22",
   "status": "proved",
   "theorems": [
    "AmrWind.Interp.bilinear_bounded",
    "AmrWind.Interp.bilinear_exact",
    "AmrWind.Interp.bilinear_at_node",
    "AmrWind.Interp.bilinear_outside_not_interpolated"
   ],
   "note": "inside the table; outside in one direction the code does not interpolate in the other (proved)"
  },
  {
   "property": "C23",
   "status": "proved",
   "theorems": [
    "AmrWind.Tag.realbox_covers",
    "AmrWind.Tag.realbox_near",
    "AmrWind.Tag.realbox_within",
    "AmrWind.Tag.realbox_leaves_domain",
    "AmrWind.Tag.contains_iff"
   ],
   "note": "the box can reach one cell beyond the domain (proved)"
  },
  {
   "property": "C37",
   "status": "proved",
   "theorems": [
    "AmrWind.Tag.static_refinement_complete",
    "AmrWind.Tag.static_refinement_near",
    "AmrWind.Tag.static_refinement_other_levels"
   ],
   "note": ""
  },
  {
   "property": "C38",
   "status": "partial",
   "theorems": [
    "AmrWind.Tag.geometric_refinement_exact",
    "AmrWind.Tag.geometric_refinement_other_levels",
    "AmrWind.Tag.cylinder_refinement_exact",
    "AmrWind.Tag.hexahedron_refinement_partial",
    "AmrWind.Tag.hexahedron_left_handed_untagged",
    "AmrWind.Tag.udf_refinement_partial",
    "AmrWind.Tag.udf_box_depends_on_tiles"
   ],
   "note": "false for left-handed box axes and for a user function with box_lo/box_hi: both proved; exact otherwise"
  },
  {
   "property": "C51",
   "status": "proved",
   "theorems": [
    "AmrWind.Vs.quaternion_rotates",
    "AmrWind.Vs.quaternion_isometry",
    "AmrWind.Vs.axis_rotations_are_quaternions",
    "AmrWind.Vs.rotation_isometry",
    "AmrWind.Vs.rotate_euler_rotates",
    "AmrWind.Vs.reflect_spec",
    "AmrWind.Vs.rotationMatrix_maps",
    "AmrWind.Vs.rotationMatrix_opposite",
    "AmrWind.Vs.unitProjection_spec"
   ],
   "note": "rotation_matrix of opposite vectors returns minus identity, not a rotation (proved)"
  },
  {
   "property": "C24",
   "status": "partial",
   "theorems": [
    "AmrWind.Averaging.doAvg_iff",
    "AmrWind.Averaging.doAvg_iff_no_phase",
    "AmrWind.Averaging.time_average_partial",
    "AmrWind.Averaging.adaptive_start_not_finite",
    "AmrWind.Averaging.adaptive_early_start_not_mean",
    "AmrWind.Averaging.restart_changes_average",
    "AmrWind.Averaging.adaptive_restart_negative_weight"
   ],
   "note": "false for adaptive steps with averaging from the start of the run (not finite, proved), less than one time unit after it, and across a restart (proved)"
  },
  {
   "property": "C25",
   "status": "partial",
   "theorems": [
    "AmrWind.Averaging.updateAll_count",
    "AmrWind.Averaging.updated_once_partial",
    "AmrWind.Averaging.added_once",
    "AmrWind.Averaging.not_requested_not_updated",
    "AmrWind.Averaging.two_groups_update_twice",
    "AmrWind.Averaging.add_averaging_twice"
   ],
   "note": "false when two groups ask for the same average or add_averaging is called twice (proved)"
  },
  {
   "property": "C26",
   "status": "partial",
   "theorems": [
    "AmrWind.Averaging.pairs_order",
    "AmrWind.Averaging.reynolds_stress_partial",
    "AmrWind.Averaging.adaptive_restart_stress"
   ],
   "note": "all six stresses, and the matrix positive semidefinite, for the runs of C24; false for a restarted adaptive run, where a variance becomes negative just if the present value is far enough from the mean (adaptive_restart_stress)"
  },
  {
   "property": "C27",
   "status": "partial",
   "theorems": [
    "AmrWind.IO.header_round_trip_partial",
    "AmrWind.IO.restore_time_partial",
    "AmrWind.IO.header_bad_shape_rejected",
    "AmrWind.IO.restart_continues_fixed_partial",
    "AmrWind.IO.restart_same_run",
    "AmrWind.IO.restart_next_step_adaptive_partial",
    "AmrWind.IO.restart_loses_step_size",
    "AmrWind.IO.real_from_int"
   ],
   "note": "everything is read back, but the present step size is not put back into the time state: with an adaptive step the restarted run differs (proved)"
  },
  {
   "property": "C28",
   "status": "proved",
   "theorems": [
    "AmrWind.IO.replicated_cells",
    "AmrWind.IO.replicated_restart",
    "AmrWind.IO.replicated_once",
    "AmrWind.IO.replicated_level0_full",
    "AmrWind.IO.replicated_restart_nodal",
    "AmrWind.IO.repOf_spec"
   ],
   "note": ""
  },
  {
   "property": "C29",
   "status": "proved",
   "theorems": [
    "AmrWind.IO.plot_names_match",
    "AmrWind.IO.outputNames_spec"
   ],
   "note": ""
  },
  {
   "property": "C30",
   "status": "partial",
   "theorems": [
    "AmrWind.IO.subvolume_match_partial",
    "AmrWind.IO.subvolume_columns_wrong",
    "AmrWind.IO.subvolume_two_fields_wrong"
   ],
   "note": "false with two fields: the component counter is not advanced (proved)"
  },
  {
   "property": "C31",
   "status": "partial",
   "theorems": [
    "AmrWind.IO.create_idempotent",
    "AmrWind.IO.filter_removes_partial",
    "AmrWind.IO.filter_breaks_lookup",
    "AmrWind.IO.parse_function",
    "AmrWind.IO.parse_plain",
    "AmrWind.IO.parse_empty_args"
   ],
   "note": "false after filter: stored positions are not adjusted (proved)"
  },
  {
   "property": "C32",
   "status": "partial",
   "theorems": [
    "AmrWind.Vof.vof_range",
    "AmrWind.Vof.sweep_exists",
    "AmrWind.Vof.step_no_clip",
    "AmrWind.Vof.debris_removed_partial",
    "AmrWind.Vof.debris_survives",
    "AmrWind.Vof.debris_stale"
   ],
   "note": "range holds for all histories; the debris half is false: the in-place loop can leave isolated cells (only below the threshold), and it reads stale ghost cells (both proved)"
  },
  {
   "property": "C33",
   "status": "proved",
   "theorems": [
    "AmrWind.Vof.volume_conserved",
    "AmrWind.Vof.volume_drift",
    "AmrWind.Vof.debris_total",
    "AmrWind.Vof.central_linear"
   ],
   "note": "one level"
  },
  {
   "property": "C34",
   "status": "proved",
   "theorems": [
    "AmrWind.Vof.each_direction_once",
    "AmrWind.Vof.order_rotates",
    "AmrWind.Vof.order_every_third",
    "AmrWind.Vof.average_direction",
    "AmrWind.Vof.restart_order"
   ],
   "note": "within one run; a restart begins with the first order (proved)"
  },
  {
   "property": "C35",
   "status": "partial",
   "theorems": [
    "AmrWind.Vof.cut_volume_is_volume",
    "AmrWind.Vof.cut_volume_exact",
    "AmrWind.Vof.cut_volume_mono",
    "AmrWind.Vof.cut_volume_mono_partial",
    "AmrWind.Vof.cut_volume_not_mono",
    "AmrWind.Vof.cut_volume_limits",
    "AmrWind.Vof.cut_volume_perm"
   ],
   "note": "exact without the guard constant; with it the volume is within tiny/4 and not monotone (proved)"
  },
  {
   "property": "C36",
   "status": "partial",
   "theorems": [
    "AmrWind.Vof.volume_intercept_exact",
    "AmrWind.Vof.volume_intercept_partial",
    "AmrWind.Vof.volume_intercept_inexact",
    "AmrWind.Vof.fit_plane_partial"
   ],
   "note": "exact without the guard constant; with it the error is at most four cube roots of it and not zero (proved)"
  },
  {
   "property": "C54",
   "status": "proved",
   "theorems": [
    "AmrWind.Vof.layered_normal",
    "AmrWind.Vof.layered_fit",
    "AmrWind.Vof.layered_sweep"
   ],
   "note": ""
  },
  {
   "property": "C39",
   "status": "proved",
   "theorems": [
    "AmrWind.Plane.plane_average",
    "AmrWind.Plane.plane_average_decomposition",
    "AmrWind.Plane.plane_average_bounds",
    "AmrWind.Plane.plane_index_in_range",
    "AmrWind.Plane.interp_convex",
    "AmrWind.Plane.interp_between",
    "AmrWind.Plane.interp_outside",
    "AmrWind.Plane.interp_single_aborts",
    "AmrWind.Plane.deriv_linear",
    "AmrWind.Plane.hvelmag_interp_between"
   ],
   "note": "with a single plane along the axis interpolation always aborts (proved)"
  },
  {
   "property": "C40",
   "status": "partial",
   "theorems": [
    "AmrWind.Plane.hvelmag_cell_wrong",
    "AmrWind.Plane.hvelmag_cell_returns",
    "AmrWind.Plane.cell_average_partial",
    "AmrWind.Plane.hvelmag_average"
   ],
   "note": "false of the code: the accessor reads the array of velocity averages (counterexample and exact description of what it returns proved); the other accessors are correct"
  },
  {
   "property": "C53",
   "status": "proved",
   "theorems": [
    "AmrWind.Plane.closest_index_spec"
   ],
   "note": ""
  },
  {
   "property": "C55",
   "status": "partial",
   "theorems": [
    "AmrWind.Plane.second_moment",
    "AmrWind.Plane.third_moment",
    "AmrWind.Plane.second_moment_nonneg",
    "AmrWind.Plane.moment_pair_partial",
    "AmrWind.Plane.moment_pair_wrong",
    "AmrWind.Plane.moment_pair_other",
    "AmrWind.Plane.moment_last_plane",
    "AmrWind.Plane.moment_triple_other",
    "AmrWind.Plane.moment_triple_partial"
   ],
   "note": "the stored moments are right; the accessor is wrong for unequal numbers of components and refuses the last plane (proved)"
  },
  {
   "property": "C56",
   "status": "partial",
   "theorems": [
    "AmrWind.Plane.fine_average",
    "AmrWind.Plane.fine_average_bounds",
    "AmrWind.Plane.interp_linear",
    "AmrWind.Plane.interp_bounds_partial",
    "AmrWind.Plane.interp_overshoot",
    "AmrWind.Plane.fine_speed_average",
    "AmrWind.Amr.nested_tiles",
    "AmrWind.Amr.nested_average",
    "AmrWind.Plane.fine_speed_products"
   ],
   "note": "the tiling is derived from nesting of the levels; the bound by the extreme values fails next to a wall in a coarse cell (proved)"
  },
  {
   "property": "C41",
   "status": "proved",
   "theorems": [
    "AmrWind.Waves.generate_weight",
    "AmrWind.Waves.absorb_weight",
    "AmrWind.Waves.combine_between",
    "AmrWind.Waves.ramp_spec",
    "AmrWind.Waves.free_surface_vof",
    "AmrWind.Waves.free_surface_vof_mono",
    "AmrWind.Waves.harmonize_mixes",
    "AmrWind.Waves.harmonize_zones",
    "AmrWind.Waves.harmonize2_mixes",
    "AmrWind.Waves.zero_length"
   ],
   "note": "a zone of zero length and zero distance is 0/0 (none)"
  },
  {
   "property": "C58",
   "status": "partial",
   "theorems": [
    "AmrWind.Waves.zone_gamma_mem",
    "AmrWind.Waves.relax_vof_mem",
    "AmrWind.Waves.relax_density",
    "AmrWind.Waves.relax_velocity_partial",
    "AmrWind.Waves.relax_overshoots",
    "AmrWind.Waves.relax_overshoots_inside",
    "AmrWind.Waves.zone_weights",
    "AmrWind.Waves.lateral_weights"
   ],
   "note": "false of the code for the velocity of cells that gain liquid: it passes the target by up to the whole difference (proved)"
  },
  {
   "property": "C59",
   "status": "proved",
   "theorems": [
    "AmrWind.Waves.LinWave.linear_wave_field",
    "AmrWind.Waves.LinWave.linear_wave_bottom",
    "AmrWind.Waves.LinWave.linear_wave_surface",
    "AmrWind.Waves.LinWave.linear_wave_periodic",
    "AmrWind.Waves.LinWave.linear_wave_travels",
    "AmrWind.Waves.LinWave.init_eq_target",
    "AmrWind.Waves.LinWave.init_eq_beach_target"
   ],
   "note": ""
  },
  {
   "property": "C60",
   "status": "partial",
   "theorems": [
    "AmrWind.Waves.dispersion_eq",
    "AmrWind.Waves.wavelength_residual_partial",
    "AmrWind.Waves.long_wave_fails",
    "AmrWind.Waves.newton_constants",
    "AmrWind.Waves.slope_is_derivative",
    "AmrWind.Waves.slope_corrected",
    "AmrWind.Waves.velocity_series"
   ],
   "note": "false of the code: no wavelength is found for periods above 8.9 s with the linear relation (proved for all depths); the accepted residual mixes the constants of two iterates; for the orders four and five the slope of Newton's method lacks a factor (`newton_constants`)"
  },
  {
   "property": "C61",
   "status": "partial",
   "theorems": [
    "AmrWind.Waves.StWave.stokes_height",
    "AmrWind.Waves.StWave.stokes_crest_trough",
    "AmrWind.Waves.StWave.stokes_periodic",
    "AmrWind.Waves.StWave.stokes_mean_level",
    "AmrWind.Waves.StWave.stokes_field_partial",
    "AmrWind.Waves.StWave.stokes_bottom",
    "AmrWind.Waves.StWave.stokes_deep_no_decay",
    "AmrWind.Waves.stokes_second_order",
    "AmrWind.Waves.stokes_deep_counterexample"
   ],
   "note": "false of the code in deep water: the cap on the hyperbolic arguments makes the velocity independent of depth (proved)"
  },
  {
   "property": "C42",
   "status": "partial",
   "theorems": [
    "AmrWind.ChanMap.coord_deriv",
    "AmrWind.ChanMap.fac_pos",
    "AmrWind.ChanMap.coord_strictMono",
    "AmrWind.ChanMap.coord_ends",
    "AmrWind.ChanMap.mesh_factors_partial",
    "AmrWind.ChanMap.mesh_increasing",
    "AmrWind.ChanMap.mesh_cells",
    "AmrWind.ChanMap.const_map",
    "AmrWind.ChanMap.physical_length_not_reached",
    "AmrWind.ChanMap.physical_length_factor",
    "AmrWind.ChanMap.ghost_not_periodic"
   ],
   "note": "Holds for every stretching (either sign), level, cell, node and face when prob_hi_physical is absent or equal to prob_hi. With another prob_hi_physical the coordinates use one length and the factors the other: physical_length_not_reached, physical_length_factor."
  },
  {
   "property": "C43",
   "status": "proved",
   "theorems": [
    "AmrWind.Mix.mix_between",
    "AmrWind.Mix.mix_mono",
    "AmrWind.Mix.nph_between",
    "AmrWind.Mix.smooth_heaviside",
    "AmrWind.Mix.levelset_density"
   ],
   "note": "Bounds and monotonicity for VOF, level set, half-step and face densities."
  },
  {
   "property": "C62",
   "status": "proved",
   "theorems": [
    "AmrWind.Mix.hydrostatic_balance",
    "AmrWind.Mix.hydrostatic_pressure",
    "AmrWind.Mix.hydrostatic_levels",
    "AmrWind.Mix.hydrostatic_density",
    "AmrWind.Mix.ghost_nodes_no_balance"
   ],
   "note": "All cells of the domain and all water levels; ghost nodes below the domain are shown not to continue the balance."
  },
  {
   "property": "C63",
   "status": "partial",
   "theorems": [
    "AmrWind.Mix.levelset_to_vof_partial",
    "AmrWind.Mix.cutoff_cubes",
    "AmrWind.Mix.cutoff_loses_volume",
    "AmrWind.Mix.flat_zero_undefined",
    "AmrWind.Mix.blanked_neighbour_wrong",
    "AmrWind.Mix.blank_interior",
    "AmrWind.Mix.blank_near_side"
   ],
   "note": "Proved when the cut-off distance is at least half the variation of the level set in the cell (always so for a signed distance on cubes). False for flat cells (cutoff_loses_volume) and next to blanked cells (blanked_neighbour_wrong)."
  },
  {
   "property": "C47",
   "status": "proved",
   "theorems": [
    "AmrWind.Amr.extrema_masked",
    "AmrWind.Amr.extrema_plain",
    "AmrWind.Amr.density_check_multiphase",
    "AmrWind.Amr.density_check_constant",
    "AmrWind.Amr.reduce_spec"
   ],
   "note": "the constants LOW_NUM and LARGE_NUM exceed twice the field values (hypothesis); includes the density check built on the extrema"
  },
  {
   "property": "C57",
   "status": "partial",
   "theorems": [
    "AmrWind.Amr.vel_extrema",
    "AmrWind.Amr.vel_loc_coordinate",
    "AmrWind.Amr.vel_loc_partial",
    "AmrWind.Amr.mac_extrema",
    "AmrWind.Amr.vel_loc_mixed"
   ],
   "note": "values proved; the place is proved when one cell alone has the extreme value; with ties the coordinates may come from different cells (proved)"
  },
  {
   "property": "C64",
   "status": "proved",
   "theorems": [
    "AmrWind.Amr.unique_leaf",
    "AmrWind.Amr.composite_integral",
    "AmrWind.Amr.volume_fraction_sum",
    "AmrWind.Amr.momentum_sum",
    "AmrWind.Amr.kinetic_energy",
    "AmrWind.Amr.enstrophy_mean",
    "AmrWind.Amr.integral_mesh_independent",
    "AmrWind.Amr.represents_exists",
    "AmrWind.Amr.volume_fraction_bounds"
   ],
   "note": ""
  },
  {
   "property": "C65",
   "status": "partial",
   "theorems": [
    "AmrWind.Amr.magnitude_spec",
    "AmrWind.Amr.norm_component",
    "AmrWind.Amr.norm_vector",
    "AmrWind.Amr.max_norm_partial",
    "AmrWind.Amr.box_norm_unmasked",
    "AmrWind.Amr.norm_one_level_partial",
    "AmrWind.Amr.max_norm_face_undefined",
    "AmrWind.Amr.face_norm_depends_on_boxes"
   ],
   "note": "proved for cell-centred fields on every hierarchy and for face and node fields on one level; false of the code for face fields on refined meshes (the norm of a constant depends on the boxes) and for the infinity norm of face and node fields (mask read outside its cells)"
  },
  {
   "property": "C66",
   "status": "partial",
   "theorems": [
    "AmrWind.Amr.wave_kinetic",
    "AmrWind.Amr.liquid_height_in_cell",
    "AmrWind.Amr.still_water_potential_partial",
    "AmrWind.Amr.still_water_reported",
    "AmrWind.Amr.still_water_not_zero"
   ],
   "note": "the sums are exact; the reported value for still water is g times the water level, zero only if the water level is zero (proved)"
  },
  {
   "property": "C44",
   "status": "proved",
   "theorems": [
    "AmrWind.Config.bc_types_spec",
    "AmrWind.Config.bc_type_unique",
    "AmrWind.Config.bc_types_abort",
    "AmrWind.Config.bc_bad_inputs",
    "AmrWind.Config.periodic_iff",
    "AmrWind.Config.velocity_bcrec",
    "AmrWind.Config.velocity_bcrec_abort",
    "AmrWind.Config.scalar_bcrec",
    "AmrWind.Config.extrap_bcrec"
   ],
   "note": ""
  },
  {
   "property": "C45",
   "status": "partial",
   "theorems": [
    "AmrWind.Config.contains_iff_effective",
    "AmrWind.Config.get_effective",
    "AmrWind.Config.query_effective",
    "AmrWind.Config.getarr_effective",
    "AmrWind.Config.getVec_effective",
    "AmrWind.Config.getEither_effective",
    "AmrWind.Config.queryarr_effective_partial",
    "AmrWind.Config.queryarr_overlay",
    "AmrWind.Config.queryEither_effective_partial",
    "AmrWind.Config.queryVec_effective_partial",
    "AmrWind.Config.query_either_mixes_namespaces",
    "AmrWind.Config.query_vector_mixes_namespaces"
   ],
   "note": "scalars and all get functions proved; false for array queries when the specific list is shorter than the default one: the tail of the default remains (witness proved)"
  },
  {
   "property": "C46",
   "status": "proved",
   "theorems": [
    "AmrWind.Config.factory_spec",
    "AmrWind.Config.factory_last",
    "AmrWind.Config.collection_spec",
    "AmrWind.Config.collection_abort",
    "AmrWind.Config.collection_stable",
    "AmrWind.Config.collection_duplicates"
   ],
   "note": ""
  },
  {
   "property": "C67",
   "status": "partial",
   "theorems": [
    "AmrWind.Config.udfs_spec",
    "AmrWind.Config.dirichlet_inside",
    "AmrWind.Config.dirichlet_domain",
    "AmrWind.Config.dirichlet_one_face",
    "AmrWind.Config.dirichlet_corner",
    "AmrWind.Config.velocity_ghost_partial",
    "AmrWind.Config.scalar_inflow_required",
    "AmrWind.Config.registered_known",
    "AmrWind.Config.udf_on_other_face",
    "AmrWind.Config.udf_last_kind_wins",
    "AmrWind.Config.pressure_read",
    "AmrWind.Config.scalar_required_iff"
   ],
   "note": "true with constant values; a function named on one inflow face replaces the values given on all others (proved)"
  },
  {
   "property": "C68",
   "status": "proved",
   "theorems": [
    "AmrWind.Config.inflow_outflow_spec",
    "AmrWind.Config.fixed_gradient_spec",
    "AmrWind.Config.inner_cell_in_box"
   ],
   "note": ""
  },
  {
   "property": "C69",
   "status": "partial",
   "theorems": [
    "AmrWind.Udf.linear_profile_spec",
    "AmrWind.Udf.linear_profile_continuous",
    "AmrWind.Udf.linear_profile_degenerate",
    "AmrWind.Udf.two_layer_spec_partial",
    "AmrWind.Udf.two_layer_ignores_vertical",
    "AmrWind.Udf.burggraf_lid_spec",
    "AmrWind.Udf.power_law_spec",
    "AmrWind.Udf.power_law_reference",
    "AmrWind.Udf.power_law_monotone",
    "AmrWind.Udf.rankine_spec_partial",
    "AmrWind.Udf.rankine_undefined",
    "AmrWind.Udf.rankine_centre_cell",
    "AmrWind.Udf.rankine_default_start",
    "AmrWind.Udf.rankine_given_start"
   ],
   "note": "false in parts: the Rankine profile is 0/0 in a cell centred on the vortex, its default start ignores the given radius, two-layer drops the vertical velocity (proved)"
  },
  {
   "property": "C48",
   "status": "partial",
   "theorems": [
    "AmrWind.Sampling.each_point_one_box",
    "AmrWind.Sampling.clampPos_inside",
    "AmrWind.Sampling.line_points",
    "AmrWind.Sampling.line_one",
    "AmrWind.Sampling.line_inside",
    "AmrWind.Sampling.line_sampler",
    "AmrWind.Sampling.plane_points",
    "AmrWind.Sampling.plane_inside_iff",
    "AmrWind.Sampling.plane_sampler_partial",
    "AmrWind.Sampling.plane_unchanged",
    "AmrWind.Sampling.plane_corrected",
    "AmrWind.Sampling.volume_points",
    "AmrWind.Sampling.volume_sampler",
    "AmrWind.Sampling.volume_misses_hi",
    "AmrWind.Sampling.probe_sampler",
    "AmrWind.Sampling.plane_fourth_corner"
   ],
   "note": "line, probe and volume samplers are proved; the claim that an accepted plane lies in the domain is false (only three corners are checked, plane_fourth_corner) and a volume never reaches its high corner (volume_misses_hi)"
  },
  {
   "property": "C70",
   "status": "proved",
   "theorems": [
    "AmrWind.Sampling.columns_match",
    "AmrWind.Sampling.particles_exist",
    "AmrWind.Sampling.particle_ids",
    "AmrWind.Sampling.buffer_correct",
    "AmrWind.Sampling.file_correct",
    "AmrWind.Sampling.netcdf_needs_velocity"
   ],
   "note": "NetCDF output stops if the velocity is not among the sampled fields (netcdf_needs_velocity)"
  },
  {
   "property": "C71",
   "status": "proved",
   "theorems": [
    "AmrWind.Sampling.interp_bounded",
    "AmrWind.Sampling.interp_local",
    "AmrWind.Sampling.interp_at_data",
    "AmrWind.Sampling.interp_trilinear",
    "AmrWind.Sampling.interp_one_ghost"
   ],
   "note": ""
  },
  {
   "property": "C72",
   "status": "partial",
   "theorems": [
    "AmrWind.FreeSurface.axis_range_spec",
    "AmrWind.FreeSurface.each_line_one_cell",
    "AmrWind.FreeSurface.checkBound_inside",
    "AmrWind.FreeSurface.checkBound_id",
    "AmrWind.FreeSurface.cellPoints_spec",
    "AmrWind.FreeSurface.cap_enough",
    "AmrWind.FreeSurface.flat_water_height_partial",
    "AmrWind.FreeSurface.full_column",
    "AmrWind.FreeSurface.one_instance",
    "AmrWind.FreeSurface.lost_point",
    "AmrWind.FreeSurface.reversed_plane",
    "AmrWind.FreeSurface.cap_drops_points",
    "AmrWind.FreeSurface.instances_scrambled",
    "AmrWind.FreeSurface.flat_water_instances"
   ],
   "note": "proved for planes given from low to high, one instance and no more points per cell than max_sample_points_per_cell; false otherwise: reversed_plane, cap_drops_points, instances_scrambled; a full column reports a point outside the domain (full_column)"
  },
  {
   "property": "C49",
   "status": "proved",
   "theorems": [
    "AmrWind.Abl.psi_zero",
    "AmrWind.Abl.psi_continuous",
    "AmrWind.Abl.psi_antitone",
    "AmrWind.Abl.iterate_spec",
    "AmrWind.Abl.update_fluxes_spec",
    "AmrWind.Abl.neutral_log_law",
    "AmrWind.Abl.stable_result",
    "AmrWind.Abl.unstable_iteration_negative",
    "AmrWind.Abl.false_warning"
   ],
   "note": "termination, continuity, signs and the drag law proved for all states; neutral and stable cases defined with positive friction velocity; for strong heating an iteration can give a negative friction velocity (unstable_iteration_negative), so positivity is not proved in unstable conditions; convergence of the iteration itself is not claimed by the code (it stops after max_iters); the warning is also printed for a run that converged in the last allowed iteration (false_warning)"
  },
  {
   "property": "C73",
   "status": "partial",
   "theorems": [
    "AmrWind.Abl.mean_stress",
    "AmrWind.Abl.local_stress",
    "AmrWind.Abl.stress_opposes",
    "AmrWind.Abl.donelan_coefficient",
    "AmrWind.Abl.mean_theta_partial",
    "AmrWind.Abl.fixed_point_flux",
    "AmrWind.Abl.ghost_spec",
    "AmrWind.Abl.temp_ghost_spec",
    "AmrWind.Abl.mol_stress_partial",
    "AmrWind.Abl.roughness_spec",
    "AmrWind.Abl.surf_temp_rate",
    "AmrWind.Abl.donelan_theta_sign",
    "AmrWind.Abl.mol_no_wind",
    "AmrWind.Abl.mol_flux",
    "AmrWind.Abl.roughness_iff"
   ],
   "note": "stress and flux proved for the constant, local, Schumann and Moeng types; Donelan's heat flux has the opposite sign (donelan_theta_sign); the mol type is 0/0 for a cell without wind (mol_no_wind)"
  },
  {
   "property": "C50",
   "status": "proved",
   "theorems": [
    "AmrWind.Fllc.points_end",
    "AmrWind.Fllc.points_spec",
    "AmrWind.Fllc.points_defined",
    "AmrWind.Fllc.grow_terminates",
    "AmrWind.Fllc.grow_stable",
    "AmrWind.Fllc.weights_trapezoid",
    "AmrWind.Fllc.weights_sum",
    "AmrWind.Fllc.narrow_part_skipped",
    "AmrWind.Fllc.weights_one_point"
   ],
   "note": "termination, order, last point and spacing proved for all blades; the trapezoidal weights sum to the span for two or more points (with one point the code reads out of range, weights_one_point)"
  },
  {
   "property": "C74",
   "status": "partial",
   "theorems": [
    "AmrWind.Fllc.lift_perp",
    "AmrWind.Fllc.kernel_continuous",
    "AmrWind.Fllc.no_lift_no_velocity",
    "AmrWind.Fllc.resolved_no_correction",
    "AmrWind.Fllc.relaxation",
    "AmrWind.Fllc.force_point_velocity_partial",
    "AmrWind.Fllc.blade_down_wrong",
    "AmrWind.Fllc.radius_spec"
   ],
   "note": "interpolation at the force points proved for blades whose distance from the domain origin grows along the blade; false otherwise, blade_down_wrong"
  },
  {
   "property": "C75",
   "status": "partial",
   "theorems": [
    "AmrWind.Disk.area_is_area",
    "AmrWind.Disk.weight_sum",
    "AmrWind.Disk.weight_nonneg",
    "AmrWind.Disk.mean_bounds",
    "AmrWind.Disk.mean_uniform",
    "AmrWind.Disk.uniform_ct_thrust",
    "AmrWind.Disk.coplanar_spec",
    "AmrWind.Disk.disk_point_spec",
    "AmrWind.Disk.theta_vec",
    "AmrWind.Disk.cos_sum",
    "AmrWind.Disk.q0_root",
    "AmrWind.Disk.joukowsky_thrust",
    "AmrWind.Disk.awc_mean",
    "AmrWind.Disk.default_defined",
    "AmrWind.Disk.solidBody_default",
    "AmrWind.Disk.joukowsky_power",
    "AmrWind.Disk.joukowsky_power_nonneg",
    "AmrWind.Disk.ref_spec",
    "AmrWind.Disk.tip_range",
    "AmrWind.Disk.tip_antitone",
    "AmrWind.Disk.root_range",
    "AmrWind.Disk.box_partial",
    "AmrWind.Disk.yaw_tilt_normal",
    "AmrWind.Disk.base_accepted",
    "AmrWind.Disk.yawed_box_empty",
    "AmrWind.Disk.one_ring_at_centre",
    "AmrWind.Disk.spreading_unchecked",
    "AmrWind.Disk.zero_points_accepted",
    "AmrWind.Disk.rpm_unchecked",
    "AmrWind.Disk.coplanar_checked",
    "AmrWind.Disk.solidBody_spec",
    "AmrWind.Disk.counts_spec",
    "AmrWind.Disk.table_value"
   ],
   "note": "points, weights, means, thrust and power proved for all disks; the bounding box contains only disks aligned with an axis (yawed_box_empty), some bad inputs are accepted"
  },
  {
   "property": "C76",
   "status": "partial",
   "theorems": [
    "AmrWind.Spread.gaussian_parts",
    "AmrWind.Spread.linearBasis_nonneg",
    "AmrWind.Spread.linearBasis_near",
    "AmrWind.Spread.linearBasis_far",
    "AmrWind.Spread.linearBasis_partition",
    "AmrWind.Spread.quad_integral",
    "AmrWind.Spread.ring_integral",
    "AmrWind.Spread.ring_conserves_partial",
    "AmrWind.Spread.inner_ring_excess",
    "AmrWind.Spread.sector_integral",
    "AmrWind.Spread.gauss_integral",
    "AmrWind.Spread.gaussian1d_spec",
    "AmrWind.Spread.gaussian3d_spec",
    "AmrWind.Spread.fac_close",
    "AmrWind.Spread.cyl_parts",
    "AmrWind.Spread.deltaCyl_spec",
    "AmrWind.Spread.radius_spec",
    "AmrWind.Spread.ringWeight_spec",
    "AmrWind.Spread.sectorWeight_spec",
    "AmrWind.Spread.gaussian_circle_partial",
    "AmrWind.Spread.gaussian_below_ground",
    "AmrWind.Spread.copyPos_history",
    "AmrWind.Spread.line_local",
    "AmrWind.Spread.line_midpoint",
    "AmrWind.Spread.tower_once_per_blade",
    "AmrWind.Spread.turbineDR_spacing",
    "AmrWind.Spread.turbine_ring_width",
    "AmrWind.Spread.tiled_inside",
    "AmrWind.Spread.tile_dependence",
    "AmrWind.Spread.fixed_as_line",
    "AmrWind.Spread.blade_weight_spec"
   ],
   "note": "proved for rings at least one spacing from the centre and for the Gaussian kernels; the innermost ring gains 1/24, the turbine disk applies the tower once per blade and uses the square of the spacing, cells outside the box get force or not depending on tiles"
  },
  {
   "property": "C77",
   "status": "partial",
   "theorems": [
    "AmrWind.Wing.wind_relative",
    "AmrWind.Wing.thin_lift",
    "AmrWind.Wing.points_spec",
    "AmrWind.Wing.widths_trapezoid",
    "AmrWind.Wing.widths_sum",
    "AmrWind.Wing.one_point_undefined",
    "AmrWind.Wing.spanLoc_spec",
    "AmrWind.Wing.local_frame_partial",
    "AmrWind.Wing.vertical_wing_swaps",
    "AmrWind.Wing.motion_history",
    "AmrWind.Wing.stale_rank",
    "AmrWind.Wing.restart_loses_motion",
    "AmrWind.Wing.motion_velocity",
    "AmrWind.Wing.frame_spec",
    "AmrWind.Wing.aoa_spec",
    "AmrWind.Wing.section_force",
    "AmrWind.Wing.section_coefficients",
    "AmrWind.Wing.two_dimensional",
    "AmrWind.Wing.thin_drag_negative",
    "AmrWind.Wing.correction_mixes_frames",
    "AmrWind.Wing.radius_partial",
    "AmrWind.Wing.short_chord_cuts",
    "AmrWind.Wing.box_contains_partial",
    "AmrWind.Wing.negative_amplitude_box"
   ],
   "note": "points, widths, motion, frames and section forces proved; false for one point (one_point_undefined), for kernel widths of wings along z (vertical_wing_swaps), for ranks joining after a regrid and restarts (stale_rank, restart_loses_motion), for the search radius of chords below one (short_chord_cuts) and the box of a negative amplitude (negative_amplitude_box)"
  },
  {
   "property": "C78",
   "status": "partial",
   "theorems": [
    "AmrWind.Proc.influenced_complete",
    "AmrWind.Proc.source_any_owner",
    "AmrWind.Proc.root_spec",
    "AmrWind.Proc.assign_spec",
    "AmrWind.Proc.assign_total",
    "AmrWind.Proc.own_rank",
    "AmrWind.Proc.received_spec_partial",
    "AmrWind.Proc.actuator_velocity_partial",
    "AmrWind.Proc.byLabel_spec",
    "AmrWind.Proc.unknown_label",
    "AmrWind.Proc.outside_zero",
    "AmrWind.Proc.root_without_boxes"
   ],
   "note": "ranks, roots and values proved for points inside the domain on ranks that own a box; points outside receive zero silently (outside_zero), so does a root without boxes (root_without_boxes); an unknown label yields the first actuator (unknown_label)"
  },
  {
   "property": "C79",
   "status": "partial",
   "theorems": [
    "AmrWind.Fvm.apply_spec",
    "AmrWind.Fvm.gradient_exact",
    "AmrWind.Fvm.divergence_exact",
    "AmrWind.Fvm.velGrad_exact",
    "AmrWind.Fvm.derived_exact",
    "AmrWind.Fvm.laplacian_partial",
    "AmrWind.Fvm.strain_spec",
    "AmrWind.Fvm.vort_spec",
    "AmrWind.Fvm.vortMag_spec",
    "AmrWind.Fvm.qcrit_spec",
    "AmrWind.Fvm.qcrit_nondim_spec",
    "AmrWind.Fvm.filter_bounded",
    "AmrWind.Fvm.filter_affine",
    "AmrWind.Fvm.curvature_partial",
    "AmrWind.Fvm.sphere_curvature",
    "AmrWind.Fvm.N_eq",
    "AmrWind.Fvm.nonlinear_partial",
    "AmrWind.Fvm.nonlinear_wrong",
    "AmrWind.Fvm.nonlinear_error",
    "AmrWind.Fvm.laplacian_wrong",
    "AmrWind.Fvm.thin_wrong",
    "AmrWind.Fvm.nonlinear_stress_ghosts",
    "AmrWind.Fvm.table_spec",
    "AmrWind.Fvm.order_complete",
    "AmrWind.Fvm.table_exact"
   ],
   "note": "proved for domains of two cells or more across walls; a thinner one gets a wrong stencil (thin_wrong); the Laplacian takes one component per direction (laplacian_wrong); two components of the non-linear stress use wrong derivatives (nonlinear_wrong) and its divergence reads ghost cells nobody filled (nonlinear_stress_ghosts); the curvature is 0/0 where the gradient vanishes"
  },
  {
   "property": "C80",
   "status": "partial",
   "theorems": [
    "AmrWind.Meso.invert_spec",
    "AmrWind.Meso.fit_defined",
    "AmrWind.Meso.temp_least_squares",
    "AmrWind.Meso.temp_cubic",
    "AmrWind.Meso.mom_partial",
    "AmrWind.Meso.mom_wrong",
    "AmrWind.Meso.weight_spec",
    "AmrWind.Meso.blend_spec",
    "AmrWind.Meso.relaxation",
    "AmrWind.Meso.constant_spec",
    "AmrWind.Meso.constant_undefined",
    "AmrWind.Meso.direct_to_constant_unset",
    "AmrWind.Meso.indirect_height",
    "AmrWind.Meso.tendency_needs_scheme"
   ],
   "note": "least squares, weights, blending and relaxation proved for temperature; false for momentum with non-uniform weights, where each normal equation is weighted by the index of its coefficient instead of its level (`mom_wrong`); the constant transition is undefined at the ends of the profile, direct-to-constant reads an unset height, tendency forcing is ignored without a scheme"
  },
  {
   "property": "C81",
   "status": "partial",
   "theorems": [
    "AmrWind.Force.coriolis_no_work",
    "AmrWind.Force.height_force",
    "AmrWind.Force.constant_force",
    "AmrWind.Force.coriolis_spec",
    "AmrWind.Force.geostrophic_balance_partial",
    "AmrWind.Force.vertical_residual",
    "AmrWind.Force.skew_wrong",
    "AmrWind.Force.ramp_spec",
    "AmrWind.Force.target_at_node",
    "AmrWind.Force.target_speed",
    "AmrWind.Force.rows_complete",
    "AmrWind.Force.rows_truncated",
    "AmrWind.Force.abl_reaches",
    "AmrWind.Force.abl_ramped",
    "AmrWind.Force.record_replay",
    "AmrWind.Force.record_zero",
    "AmrWind.Force.gradient_balance",
    "AmrWind.Force.hurricane_default_period",
    "AmrWind.Force.temp_tangential",
    "AmrWind.Force.body_kind",
    "AmrWind.Force.body_refused",
    "AmrWind.Force.oscillation",
    "AmrWind.Force.hurricane_temp_spec"
   ],
   "note": "balances, targets, ramps and records proved; geostrophic forcing leaves the vertical part of Coriolis forcing (`vertical_residual`), east and north are not checked to be perpendicular (`skew_wrong`), a truncated last row is accepted, output frequency 0 divides by zero, the hurricane default period differs from the one of Coriolis forcing and its temperature forcing uses the tangential mean wind only"
  },
  {
   "property": "C82",
   "status": "partial",
   "theorems": [
    "AmrWind.Buoy.warm_rises",
    "AmrWind.Buoy.reference_free",
    "AmrWind.Buoy.mean_zero",
    "AmrWind.Buoy.density_buoyancy_spec",
    "AmrWind.Buoy.gravity_spec",
    "AmrWind.Buoy.gravity_density",
    "AmrWind.Buoy.profile_file_ignored",
    "AmrWind.Buoy.rayleigh_coeff",
    "AmrWind.Buoy.rayleigh_continuous",
    "AmrWind.Buoy.rayleigh_relaxes",
    "AmrWind.Buoy.nudge_spec",
    "AmrWind.Buoy.nudge_start_above",
    "AmrWind.Buoy.velocity_timescale_ignored",
    "AmrWind.Buoy.temperature_timescale",
    "AmrWind.Buoy.mast_weight",
    "AmrWind.Buoy.mast_partial",
    "AmrWind.Buoy.other_masts_ignored",
    "AmrWind.Buoy.damping_radius_wrong",
    "AmrWind.Buoy.mast_defined"
   ],
   "note": "directions, continuity and relaxation proved; a given profile file is ignored (`profile_file_ignored`), velocity nudging ignores its time scale, a nudging height above the domain forces it everywhere (`nudge_start_above`), met mast forcing uses the first mast only and compares the damping radius with a squared scaled distance"
  },
  {
   "property": "C83",
   "status": "partial",
   "theorems": [
    "AmrWind.Drag.blank_spec",
    "AmrWind.Drag.drag_spec",
    "AmrWind.Drag.drag_exists",
    "AmrWind.Drag.low_terrain_no_drag",
    "AmrWind.Drag.east_spec",
    "AmrWind.Drag.west_mirror",
    "AmrWind.Drag.sponge_off",
    "AmrWind.Drag.damping_spec",
    "AmrWind.Drag.west_positive_wrong",
    "AmrWind.Drag.free_cell",
    "AmrWind.Drag.blanked_relaxes",
    "AmrWind.Drag.blanked_rate",
    "AmrWind.Drag.sponge_relaxes",
    "AmrWind.Drag.no_abl_no_sponge",
    "AmrWind.Drag.laminar_keeps_sponge",
    "AmrWind.Drag.ustar_spec",
    "AmrWind.Drag.target_spec",
    "AmrWind.Drag.wall_step_partial",
    "AmrWind.Drag.stress_accelerates",
    "AmrWind.Drag.form_drag_accelerates",
    "AmrWind.Drag.form_drag_undefined",
    "AmrWind.Drag.rough_reverses",
    "AmrWind.Drag.rough_undefined",
    "AmrWind.Drag.wave_frame_wrong",
    "AmrWind.Drag.temp_target_spec",
    "AmrWind.Drag.temp_step",
    "AmrWind.Drag.soil_relaxes",
    "AmrWind.Drag.temp_sponge_relaxes",
    "AmrWind.Drag.heat_constants_ignored",
    "AmrWind.Drag.temp_ustar_wrong",
    "AmrWind.Drag.wave_blank_spec",
    "AmrWind.Drag.psi_used_spec",
    "AmrWind.Drag.theta_star_spec",
    "AmrWind.Drag.sponge_strength",
    "AmrWind.Drag.zc_centre",
    "AmrWind.Drag.rough_spec",
    "AmrWind.Drag.wall_step_moving_partial"
   ],
   "note": "blanking, relaxation and sponges proved; the wall stress and the form drag have the sign of the velocity and accelerate the flow (`stress_accelerates`, `form_drag_accelerates`), form drag is 0/0 on flat water, the target velocity reverses for roughness between 0.5 and 1.5 cells, air moving with the waves is brought to rest in the ground frame, positive west and south distances damp the whole domain, the laminar flag does not turn the sponge off, and the heat constants are read from the momentum ones"
  },
  {
   "property": "C84",
   "status": "partial",
   "theorems": [
    "AmrWind.Forest.shape_spec",
    "AmrWind.Forest.trapz_scale",
    "AmrWind.Forest.quad_pos",
    "AmrWind.Forest.uniform_total",
    "AmrWind.Forest.profile_total",
    "AmrWind.Forest.box_complete",
    "AmrWind.Forest.cell_spec",
    "AmrWind.Forest.forest_power",
    "AmrWind.Forest.read_spec_partial",
    "AmrWind.Forest.header_no_forest",
    "AmrWind.Forest.top_undefined",
    "AmrWind.Forest.height_absolute",
    "AmrWind.Forest.unknown_kind"
   ],
   "note": "shape, totals, region and sign proved; a header line silently empties the list (`header_no_forest`), the profile is undefined at the top of the canopy, heights are absolute and unknown kinds are accepted without drag"
  },
  {
   "property": "C85",
   "status": "partial",
   "theorems": [
    "AmrWind.Les.width_cubed",
    "AmrWind.Les.frob_rotate",
    "AmrWind.Les.S_rotate",
    "AmrWind.Les.smag_spec",
    "AmrWind.Les.eff_spec",
    "AmrWind.Les.length_spec",
    "AmrWind.Les.length_antitone",
    "AmrWind.Les.production_spec",
    "AmrWind.Les.prandtl_spec",
    "AmrWind.Les.dissip_spec",
    "AmrWind.Les.source_spec",
    "AmrWind.Les.upper_refused",
    "AmrWind.Les.clip_spec",
    "AmrWind.Les.zero_energy_undefined",
    "AmrWind.Les.energy_step_partial",
    "AmrWind.Les.density_wrong",
    "AmrWind.Les.equilibrium",
    "AmrWind.Les.amd_shear_spec",
    "AmrWind.Les.amd_quiet",
    "AmrWind.Les.amd_mean_stratification",
    "AmrWind.Les.amd_positive",
    "AmrWind.Les.amd_heat_spec",
    "AmrWind.Les.amd_no_conduction",
    "AmrWind.Les.amd_rotation",
    "AmrWind.Les.amd_bounded",
    "AmrWind.Les.kos_scale_spec",
    "AmrWind.Les.kos_wall_stress",
    "AmrWind.Les.kos_height_spec",
    "AmrWind.Les.kos_wall_distance_wrong",
    "AmrWind.Les.kos_alpha_spec",
    "AmrWind.Les.kos_density_wrong",
    "AmrWind.Les.kos_coeffs_spec",
    "AmrWind.Les.amd_formula",
    "AmrWind.Les.kos_wall_distance_terrain",
    "AmrWind.Les.kos_surface_length",
    "AmrWind.Les.kos_stress_spec",
    "AmrWind.Les.sdr_spec",
    "AmrWind.Les.subgrid_energy_diffusivity"
   ],
   "note": "lengths, signs, bounds and invariance proved; production of energy is multiplied by density twice and dissipation once (`density_wrong`), zero energy in stable air is 0/0, the thermal diffusivity of the minimum-dissipation model leaves out the molecular part, the nonlinear model measures wall distance at the top of the cell and from index zero and multiplies its stress by density twice; with the surface layer on, the nonlinear stress of Kosovic lacks the factor C1/4 in its surface part (`kos_stress_spec`)"
  },
  {
   "property": "C86",
   "status": "partial",
   "theorems": [
    "AmrWind.Axell.rt_spec",
    "AmrWind.Axell.clip_spec",
    "AmrWind.Axell.stability_spec",
    "AmrWind.Axell.buoyancy_heat_partial",
    "AmrWind.Axell.shear_length_spec",
    "AmrWind.Axell.length_spec",
    "AmrWind.Axell.update_spec",
    "AmrWind.Axell.heat_spec",
    "AmrWind.Axell.zero_energy_undefined",
    "AmrWind.Axell.inputs_ignored",
    "AmrWind.Axell.neutral_mismatch",
    "AmrWind.Axell.first_length_depends",
    "AmrWind.Axell.height_spec",
    "AmrWind.Axell.height_absolute",
    "AmrWind.Axell.source_spec",
    "AmrWind.Axell.sponge_spec",
    "AmrWind.Axell.sponge_start_above",
    "AmrWind.Axell.ground_spec",
    "AmrWind.Axell.ground_height_wrong",
    "AmrWind.Axell.terrain_decay",
    "AmrWind.Axell.terrain_drag",
    "AmrWind.Axell.side_off",
    "AmrWind.Axell.side_strength_ignored",
    "AmrWind.Axell.stratification_spec",
    "AmrWind.Axell.side_on",
    "AmrWind.Axell.tke_diffusivity",
    "AmrWind.Axell.zero_energy_iff"
   ],
   "note": "ranges, signs and relaxations proved; with no surface heat flux the energy loses more to buoyancy than the heat flux takes (`neutral_mismatch`), the agreement of the two stability functions with the Prandtl number is within 1 % only, `Cmu_prime` and `prandtl` are ignored, heights without terrain are absolute, a sponge starting above the domain acts everywhere and the strength of the horizontal sponge has no effect, the length after a regrid starts from zero, zero energy is 0/0"
  },
  {
   "property": "C87",
   "status": "partial",
   "theorems": [
    "AmrWind.Sst.blending_range",
    "AmrWind.Sst.menter_blending",
    "AmrWind.Sst.blend_spec",
    "AmrWind.Sst.viscosity_spec",
    "AmrWind.Sst.production_spec",
    "AmrWind.Sst.diffusivity_spec",
    "AmrWind.Sst.buoyancy_spec",
    "AmrWind.Sst.tke_step_partial",
    "AmrWind.Sst.implicit_positive",
    "AmrWind.Sst.ambient_not_sustained",
    "AmrWind.Sst.explicit_half_dissipation",
    "AmrWind.Sst.density_wrong",
    "AmrWind.Sst.omega_steady_partial",
    "AmrWind.Sst.omega_implicit_wrong",
    "AmrWind.Sst.cross_diffusion_lost",
    "AmrWind.Sst.elevating_zero",
    "AmrWind.Sst.shield_spec",
    "AmrWind.Sst.near_wall",
    "AmrWind.Sst.iddes_between",
    "AmrWind.Sst.les_length_spec",
    "AmrWind.Sst.iddes_dissipation",
    "AmrWind.Sst.iddes_no_buoyancy",
    "AmrWind.Sst.still_air",
    "AmrWind.Sst.explicit_sources",
    "AmrWind.Sst.elevating_exponent"
   ],
   "note": "bounds, limits and the step of energy for unit density proved; ambient values decay unless diffusion is explicit (`ambient_not_sustained`), explicit diffusion leaves out half the dissipation, implicit diffusion has its equilibrium of omega at twice the destruction (`omega_implicit_wrong`), Crank-Nicolson loses positive cross diffusion, production is multiplied by density twice, IDDES never computes buoyancy"
  },
  {
   "property": "C88",
   "status": "partial",
   "theorems": [
    "AmrWind.Ref.gas_constants",
    "AmrWind.Ref.eos_ideal",
    "AmrWind.Ref.eos_deriv",
    "AmrWind.Ref.eos_monotone",
    "AmrWind.Ref.default_pressure_wrong",
    "AmrWind.Ref.newton_converged",
    "AmrWind.Ref.column_eos",
    "AmrWind.Ref.column_hydrostatic",
    "AmrWind.Ref.column_monotone",
    "AmrWind.Ref.bottom_hydrostatic",
    "AmrWind.Ref.reference_pressure_nodes",
    "AmrWind.Ref.top_pressure_jump",
    "AmrWind.Ref.bad_guess_refused",
    "AmrWind.Ref.precedence",
    "AmrWind.Ref.mixture_spec",
    "AmrWind.Ref.levelset_fraction",
    "AmrWind.Ref.diffusivity_spec",
    "AmrWind.Ref.expansion_spec_partial",
    "AmrWind.Ref.reference_theta",
    "AmrWind.Ref.unset_temperature",
    "AmrWind.Ref.zero_expansion_ignored",
    "AmrWind.Ref.reference_density_cells"
   ],
   "note": "law, derivative, balance and mixtures proved; the nodal reference pressure holds at node k the pressure of the centre of cell k and zero at the top (`reference_pressure_nodes`, `top_pressure_jump`), the default argument of the reference pressure is 1e-5 for 1e5 (`default_pressure_wrong`), without a reference temperature the thermal expansion is -1 (`unset_temperature`), a coefficient of zero is ignored"
  },
  {
   "property": "C89",
   "status": "partial",
   "theorems": [
    "AmrWind.Step.theta_scheme",
    "AmrWind.Step.corrector_scheme",
    "AmrWind.Step.explicit_rk2_partial",
    "AmrWind.Step.explicit_rk2_map_wrong",
    "AmrWind.Step.scalar_operator_wrong",
    "AmrWind.Step.scalar_operator_water",
    "AmrWind.Step.masked_unchanged",
    "AmrWind.Step.total_conserved",
    "AmrWind.Step.solution_unique",
    "AmrWind.Step.uniform_kept",
    "AmrWind.Step.diffusion_stable",
    "AmrWind.Step.implicit_bounded",
    "AmrWind.Step.crank_nicolson_undershoots",
    "AmrWind.Step.explicit_unstable",
    "AmrWind.Step.mol_source_first_order",
    "AmrWind.Step.normal_velocity_given",
    "AmrWind.Step.tangential_velocity",
    "AmrWind.Step.refused_kinds",
    "AmrWind.Step.scalar_kinds",
    "AmrWind.Step.face_viscosity",
    "AmrWind.Step.mapped_laplacian",
    "AmrWind.Step.solution_exists_unique",
    "AmrWind.Step.scalar_operator_rk2_wrong"
   ],
   "note": "schemes, uniqueness, conservation and stability proved for exact solves; with `use_tensor_operator = false` the explicit viscous term is divided by density twice (`scalar_operator_wrong`), the improvement of explicit diffusion leaves out the map (`explicit_rk2_map_wrong`), Crank-Nicolson, the default, can make a positive scalar negative"
  },
  {
   "property": "C90",
   "status": "partial",
   "theorems": [
    "AmrWind.Wall.law_deriv",
    "AmrWind.Wall.law_convex",
    "AmrWind.Wall.utau_spec_partial",
    "AmrWind.Wall.utau_fixed",
    "AmrWind.Wall.abort_only_settled",
    "AmrWind.Wall.unsettled_returned",
    "AmrWind.Wall.log_stress",
    "AmrWind.Wall.still_undefined",
    "AmrWind.Wall.schumann_mean",
    "AmrWind.Wall.wave_stress",
    "AmrWind.Wall.wave_undefined",
    "AmrWind.Wall.ghost_spec",
    "AmrWind.Wall.constant_upper_wrong",
    "AmrWind.Wall.constant_balance_partial",
    "AmrWind.Wall.constant_direction_wrong",
    "AmrWind.Wall.zref_absolute",
    "AmrWind.Wall.zref_negative_undefined",
    "AmrWind.Wall.read_linear",
    "AmrWind.Wall.read_depends_on_boxes",
    "AmrWind.Wall.read_not_nearest"
   ],
   "note": "law, stresses and errors proved; the check of the iteration is inverted (`abort_only_settled`, `unsettled_returned`), the constant stress drives the flow at the upper wall (`constant_upper_wrong`) and is always along x, the height of the law is the absolute coordinate (`zref_absolute`), the wave stress is 0/0 on crests and depends on the boxes"
  },
  {
   "property": "C91",
   "status": "partial",
   "theorems": [
    "AmrWind.Init.table_is_linear_partial",
    "AmrWind.Init.table_above_wrong",
    "AmrWind.Init.temperature_spec",
    "AmrWind.Init.linear_profile_ends",
    "AmrWind.Init.profile_height_spec",
    "AmrWind.Init.profile_missing",
    "AmrWind.Init.profile_bounded",
    "AmrWind.Init.table_wind",
    "AmrWind.Init.perturb_amplitude",
    "AmrWind.Init.perturb_periodic",
    "AmrWind.Init.perturb_half_jumps",
    "AmrWind.Init.perturb_mean_zero",
    "AmrWind.Init.perturb_mean_aliased",
    "AmrWind.Init.perturb_divergence_free",
    "AmrWind.Init.density_set",
    "AmrWind.Init.tke_beare",
    "AmrWind.Init.tke_profile",
    "AmrWind.Init.file_cells",
    "AmrWind.Init.fill_collective",
    "AmrWind.Init.tke_cases"
   ],
   "note": "profiles, perturbations, energies and reading of files proved; above the last height of the table the temperature is that of the FIRST height (`table_above_wrong`), the linear profile is shifted unless the domain starts at zero (`linear_profile_ends`), with a NetCDF profile the density is never set (`density_set`), a rank without boxes of a fine level does not take part in the collective fill (`fill_collective`)"
  },
  {
   "property": "C92",
   "status": "partial",
   "theorems": [
    "AmrWind.Mpl.wind_comes_from",
    "AmrWind.Mpl.turn_total",
    "AmrWind.Mpl.turn_misses_first",
    "AmrWind.Mpl.restart_forgets",
    "AmrWind.Mpl.velocity_along",
    "AmrWind.Mpl.still_undefined",
    "AmrWind.Mpl.power_law",
    "AmrWind.Mpl.power_int",
    "AmrWind.Mpl.bulk_partial",
    "AmrWind.Mpl.bulk_wrong",
    "AmrWind.Mpl.bulk_uniform",
    "AmrWind.Mpl.speed_at_zref",
    "AmrWind.Mpl.temperature_spec",
    "AmrWind.Mpl.temperature_above_wrong",
    "AmrWind.Mpl.velocity_defined"
   ],
   "note": "direction, power law and its integral proved; the mean is not the bulk velocity, the upper layer below the end of the power law is left out of the balance (`bulk_wrong`; exact without shear, `bulk_uniform`), the direction is not kept over a restart (`restart_forgets`), the first step does not turn, temperatures above the table as in C91"
  },
  {
   "property": "C93",
   "status": "partial",
   "theorems": [
    "AmrWind.Stats.zi_gpu_partial",
    "AmrWind.Stats.zi_cpu",
    "AmrWind.Stats.zi_cpu_wrong",
    "AmrWind.Stats.wstar_spec",
    "AmrWind.Stats.output_steps",
    "AmrWind.Stats.output_off",
    "AmrWind.Stats.sfs_stress",
    "AmrWind.Stats.sfs_rigid",
    "AmrWind.Stats.heat_flux_down",
    "AmrWind.Stats.budget_cell",
    "AmrWind.Stats.budget_plane",
    "AmrWind.Stats.row_partial",
    "AmrWind.Stats.row_budget_partial",
    "AmrWind.Stats.tke_buoy_wrong",
    "AmrWind.Stats.written_declared",
    "AmrWind.Stats.declared_written",
    "AmrWind.Stats.profile_rows",
    "AmrWind.Stats.profile_head_partial",
    "AmrWind.Stats.profile_no_head",
    "AmrWind.Stats.budget_steps"
   ],
   "note": "steps, convective velocity, stresses, residual and all profiles but one proved; on processors the height of the boundary layer is half the number of cells along x times dz whatever the temperature, the scan stores `i` for `k` (`zi_cpu`, `zi_cpu_wrong`; accelerators are right, `zi_gpu_partial`); `tke_buoy` holds the dissipation (`tke_buoy_wrong`), `k_sgs` is declared and never written (`declared_written`), profile files have no head unless the interval is 1 (`profile_no_head`)"
  },
  {
   "property": "C94",
   "status": "partial",
   "theorems": [
    "AmrWind.Bndry.read_between",
    "AmrWind.Bndry.between_unique",
    "AmrWind.Bndry.replay_at_record",
    "AmrWind.Bndry.replay_bounded",
    "AmrWind.Bndry.read_defined",
    "AmrWind.Bndry.run_between",
    "AmrWind.Bndry.populate_spec",
    "AmrWind.Bndry.single_record",
    "AmrWind.Bndry.recorded_spec",
    "AmrWind.Bndry.native_face",
    "AmrWind.Bndry.netcdf_face",
    "AmrWind.Bndry.netcdf_high_wrong",
    "AmrWind.Bndry.netcdf_read",
    "AmrWind.Bndry.netcdf_read_partial",
    "AmrWind.Bndry.netcdf_read_wrong"
   ],
   "note": "selection, times, interpolation and native planes proved; NetCDF planes on a high side hold the mean of the first two ghost cells (`netcdf_high_wrong`), NetCDF planes of a refined level are read shifted if the boxes on the boundary do not reach the low corner of the level (`netcdf_read_wrong`; proved otherwise, `netcdf_read_partial`)"
  },
  {
   "property": "C95",
   "status": "proved",
   "theorems": [
    "AmrWind.Overset.interface_band_iff",
    "AmrWind.Overset.plain_mask",
    "AmrWind.Overset.node_mask_iff",
    "AmrWind.Overset.mac_mask_iff",
    "AmrWind.Overset.mask_restored",
    "AmrWind.Overset.mask_in_projection",
    "AmrWind.Overset.hole_masked"
   ],
   "note": "for volume fractions in the closed unit interval; ghost cells hold the values of the cells they image"
  },
  {
   "property": "C96",
   "status": "partial",
   "theorems": [
    "AmrWind.Overset.fluxes_confined",
    "AmrWind.Overset.unit_zeta_spec",
    "AmrWind.Overset.fluxes_inside",
    "AmrWind.Overset.outside_unchanged",
    "AmrWind.Overset.clip_spec",
    "AmrWind.Overset.clip_zero",
    "AmrWind.Overset.sharpen_conserves",
    "AmrWind.Overset.sharpen_mixture",
    "AmrWind.Overset.set_density_spec",
    "AmrWind.Overset.target_fixed",
    "AmrWind.Overset.harmonize_spec",
    "AmrWind.Overset.pick_mirror",
    "AmrWind.Overset.pick_sides",
    "AmrWind.Overset.alpha_flux_bound",
    "AmrWind.Overset.face_value_spec",
    "AmrWind.Overset.ptfac_range",
    "AmrWind.Overset.drain_low",
    "AmrWind.Overset.drain_high",
    "AmrWind.Overset.drain_one_axis_partial",
    "AmrWind.Overset.levels_agree",
    "AmrWind.Overset.loop_spec",
    "AmrWind.Overset.loop_zero_tol",
    "AmrWind.Overset.loop_zero_interval",
    "AmrWind.Overset.measure_spec",
    "AmrWind.Overset.pv_scale_spec",
    "AmrWind.Overset.drain_several_faces",
    "AmrWind.Overset.own_cell_cut",
    "AmrWind.Overset.asdf_spec",
    "AmrWind.Overset.normal_short",
    "AmrWind.Overset.normal_one_sided",
    "AmrWind.Overset.p_source_spec",
    "AmrWind.Overset.p_source_outside",
    "AmrWind.Overset.flux_tensor_uniform",
    "AmrWind.Overset.ring_spec",
    "AmrWind.Overset.levelset_is_speed",
    "AmrWind.Overset.zeta_mean",
    "AmrWind.Overset.flat_pressure_gradient",
    "AmrWind.Overset.density_between"
   ],
   "note": "conservation proved before the volume fraction is cut to its range; the cut makes liquid when a cell is drained through several faces (`drain_several_faces`; along one axis it cannot, `drain_one_axis_partial`) and acts in cells of this solver (`own_cell_cut`); a tolerance of zero makes no iteration (`loop_zero_tol`); the level set field is overwritten by the speed (`levelset_is_speed`)"
  },
  {
   "property": "C97",
   "status": "partial",
   "theorems": [
    "AmrWind.Overset.patch_ids",
    "AmrWind.Overset.local_id_spec",
    "AmrWind.Overset.global_id_spec",
    "AmrWind.Overset.patch_count",
    "AmrWind.Overset.slots_disjoint",
    "AmrWind.Overset.updates_safe_partial",
    "AmrWind.Overset.regrid_null",
    "AmrWind.Overset.replace_masked_spec",
    "AmrWind.Overset.options_spec"
   ],
   "note": "a mesh change outside a connectivity update dereferences a null pointer (`regrid_null`); the rest is proved; the exchange itself is in another program"
  },
  {
   "property": "C98",
   "status": "partial",
   "theorems": [
    "AmrWind.Adv.godunov_conserves",
    "AmrWind.Adv.godunov_periodic",
    "AmrWind.Adv.box_rate",
    "AmrWind.Adv.mol_conserves_one_level_partial",
    "AmrWind.Adv.mol_refined_not_conserved",
    "AmrWind.Adv.uniform_rate"
   ],
   "note": "proved for the Godunov schemes on any mesh and for the method of lines on one level; false for the method of lines on refined meshes (`mol_refined_not_conserved`); the flux of a face shared by two boxes is taken to be one value"
  },
  {
   "property": "C99",
   "status": "partial",
   "theorems": [
    "AmrWind.Adv.scheme_spec",
    "AmrWind.Adv.same_reconstruction",
    "AmrWind.Adv.recon_injective",
    "AmrWind.Adv.time_centred_partial",
    "AmrWind.Adv.band_late",
    "AmrWind.Adv.face_density_range",
    "AmrWind.Adv.mass_consistent",
    "AmrWind.Adv.uniform_velocity_kept",
    "AmrWind.Adv.tiles_one",
    "AmrWind.Adv.shared_face_twice",
    "AmrWind.Adv.mol_tile_independent",
    "AmrWind.Adv.mol_boundary",
    "AmrWind.Adv.mol_between",
    "AmrWind.Adv.mol_upwind",
    "AmrWind.Adv.mol_uniform",
    "AmrWind.Adv.minmod_ok",
    "AmrWind.Adv.mol_inner"
   ],
   "note": "the slopes and reconstructions of AMReX are parameters with stated requirements; in the interface band later iterations are not centred in time (`band_late`), and in boxes of more than 1024 cells a face between two tiles is treated twice (`shared_face_twice`)"
  },
  {
   "property": "C100",
   "status": "proved",
   "theorems": [
    "AmrWind.Adv.projection_correction",
    "AmrWind.Adv.projection_unknown",
    "AmrWind.Adv.projection_divergence",
    "AmrWind.Adv.beta_pos",
    "AmrWind.Adv.projection_bc",
    "AmrWind.Adv.constant_density_input"
   ],
   "note": "the multigrid or FFT solver is taken to solve exactly; enforcing solvability at inflow-outflow boundaries is in AMReX-Hydro"
  },
  {
   "property": "C101",
   "status": "partial",
   "theorems": [
    "AmrWind.Exact.ctv_solves_partial",
    "AmrWind.Exact.ctv_density",
    "AmrWind.Exact.ekman_solves",
    "AmrWind.Exact.ekman_density",
    "AmrWind.Exact.burggraf_solves",
    "AmrWind.Exact.channel_solves_partial",
    "AmrWind.Exact.channel_origin",
    "AmrWind.Exact.chan_error_laminar",
    "AmrWind.Exact.chan_error_smag",
    "AmrWind.Exact.smag_not_balanced"
   ],
   "note": "the Taylor vortex solves the equations only for unit density, as does the channel; the channel profile is measured from coordinate zero (`channel_origin`); the profile for the Smagorinsky model is not a steady solution (`smag_not_balanced`)"
  },
  {
   "property": "C102",
   "status": "partial",
   "theorems": [
    "AmrWind.Exact.rms_bounds",
    "AmrWind.Exact.rms_zero",
    "AmrWind.Exact.rms_domain_partial",
    "AmrWind.Exact.rms_mapped"
   ],
   "note": "the channel on a mapped mesh divides physical by computational volume (`rms_mapped`)"
  },
  {
   "property": "C103",
   "status": "partial",
   "theorems": [
    "AmrWind.Case.bw_surface",
    "AmrWind.Case.wobble_modes",
    "AmrWind.Case.tg_solenoidal_partial",
    "AmrWind.Case.tg_periodic",
    "AmrWind.Case.dipole_solenoidal",
    "AmrWind.Case.dipole_jet",
    "AmrWind.Case.pert_solenoidal",
    "AmrWind.Case.reichardt_spec",
    "AmrWind.Case.wall_dist_spec",
    "AmrWind.Case.wall_dist_other",
    "AmrWind.Case.channel_x_walls",
    "AmrWind.Case.vp_div",
    "AmrWind.Case.vp_conserves_partial",
    "AmrWind.Case.vp_not_conserved",
    "AmrWind.Case.vp_returns",
    "AmrWind.Case.vp_times",
    "AmrWind.Case.zd_rotation",
    "AmrWind.Case.bw_solenoidal",
    "AmrWind.Case.bw_level",
    "AmrWind.Case.ring_divergence",
    "AmrWind.Case.grad_linear",
    "AmrWind.Case.ring_curl",
    "AmrWind.Case.ring_reversed",
    "AmrWind.Case.fatcore_support",
    "AmrWind.Case.fatcore_circulation",
    "AmrWind.Case.ring_circulation",
    "AmrWind.Case.colliding_mirror"
   ],
   "note": "Taylor-Green needs a square base, the vortex patch cubic cells (`vp_not_conserved`); the rings turn against the given vorticity (`ring_reversed`) and the fat core has less than half of the circulation (`fatcore_circulation`); face velocities of the patch are at the wrong time when the step changes (`vp_times`)"
  },
  {
   "property": "C104",
   "status": "partial",
   "theorems": [
    "AmrWind.Case.gauss_average",
    "AmrWind.Case.gauss2_average",
    "AmrWind.Case.square_average_partial",
    "AmrWind.Case.square_wide",
    "AmrWind.Case.exact_advection_partial",
    "AmrWind.Case.exact_average",
    "AmrWind.Case.exact_not_periodic",
    "AmrWind.Case.packet_quadrature",
    "AmrWind.Case.poly_mean",
    "AmrWind.Case.packet_bounds"
   ],
   "note": "the square pulse is wrong in cells wider than the pulse (`square_wide`); the exact solution does not wrap round (`exact_not_periodic`); the wave packet uses a quadrature"
  },
  {
   "property": "C105",
   "status": "partial",
   "theorems": [
    "AmrWind.Case.ball_pos",
    "AmrWind.Case.ball_distance",
    "AmrWind.Case.disk_sign",
    "AmrWind.Case.dam_sign_partial",
    "AmrWind.Case.dam_location",
    "AmrWind.Case.slosh_pressure",
    "AmrWind.Case.slosh_overfull",
    "AmrWind.Case.slosh_surface",
    "AmrWind.Case.drop_momentum",
    "AmrWind.Case.rt_density",
    "AmrWind.Case.rt_interface",
    "AmrWind.Case.bubble_spec",
    "AmrWind.Case.bw_frequency",
    "AmrWind.Case.dam_value",
    "AmrWind.Case.dam_outside"
   ],
   "note": "the dam break misplaces the water when the location is not zero (`dam_location`)"
  },
  {
   "property": "C106",
   "status": "partial",
   "theorems": [
    "AmrWind.Syn.force_at_point",
    "AmrWind.Syn.force_history_partial",
    "AmrWind.Syn.field_spec",
    "AmrWind.Syn.lr_periodic",
    "AmrWind.Syn.lr_range_partial",
    "AmrWind.Syn.lr_overflow",
    "AmrWind.Syn.frame_spec",
    "AmrWind.Syn.eta_integral",
    "AmrWind.Syn.gust_behind",
    "AmrWind.Syn.gust_exact",
    "AmrWind.Syn.force_density",
    "AmrWind.Syn.linear_spec",
    "AmrWind.Syn.power_spec",
    "AmrWind.Syn.load_defined"
   ],
   "note": "history independence proved in full for files whose lengths are points times distance; the force is multiplied by the density twice (`force_density`), a lull slows the stream too much (`gust_exact`), a decreasing linear profile is constant (`linear_spec`), a longer length in the file reads out of range (`lr_overflow`)"
  },
  {
   "property": "C107",
   "status": "partial",
   "theorems": [
    "AmrWind.Nodal.gradient_of_pressure",
    "AmrWind.Nodal.true_pressure",
    "AmrWind.Nodal.balance",
    "AmrWind.Nodal.divergence_free_partial",
    "AmrWind.Nodal.divergence_kept",
    "AmrWind.Nodal.small_inflow",
    "AmrWind.Nodal.small_same",
    "AmrWind.Nodal.project_again",
    "AmrWind.Nodal.constant_density",
    "AmrWind.Nodal.bc_table",
    "AmrWind.Nodal.small_step",
    "AmrWind.Nodal.toProject_flux",
    "AmrWind.Nodal.sigma_flux"
   ],
   "note": "all cells of levels not covered; the solver is a parameter, exactness a hypothesis of the divergence theorems; the form for small steps keeps the divergence of the old velocity, so a change of inflow in that step is not projected (`small_inflow`, `divergence_kept`); with constant density the new gradient is weighted with the density of the input, not of the field (`constant_density`)"
  },
  {
   "property": "C108",
   "status": "partial",
   "theorems": [
    "AmrWind.Ib.masked_nodes",
    "AmrWind.Ib.shape_sign",
    "AmrWind.Ib.cylinder_infinite",
    "AmrWind.Ib.sphere_distance",
    "AmrWind.Ib.box_distance",
    "AmrWind.Ib.box_outside_wrong",
    "AmrWind.Ib.levelset_union",
    "AmrWind.Ib.init_order",
    "AmrWind.Ib.mask_spec",
    "AmrWind.Ib.box_masks_solid",
    "AmrWind.Ib.sphere_misses_solid",
    "AmrWind.Ib.fluid_unchanged",
    "AmrWind.Ib.last_wins",
    "AmrWind.Ib.solid_velocity_partial",
    "AmrWind.Ib.first_overwritten",
    "AmrWind.Ib.mms_box_wrong",
    "AmrWind.Ib.normal_spec",
    "AmrWind.Ib.not_restored",
    "AmrWind.Ib.restored_iff",
    "AmrWind.Ib.regrid_loses_mask",
    "AmrWind.Ib.regrid_loses_bodies",
    "AmrWind.Ib.regrid_mms_everywhere",
    "AmrWind.Ib.regrid_kept_partial",
    "AmrWind.Ib.shape_nodes"
   ],
   "note": "proved: signs, union, mask and velocities before the projection for equal velocities; false of the code and refuted: velocity after the projection (`not_restored`), bodies with different velocities (`first_overwritten`), height of cylinders (`cylinder_infinite`), level set outside boxes (`box_outside_wrong`, `mms_box_wrong`), masks of spheres (`sphere_misses_solid`), regrids (`regrid_loses_mask`)"
  },
  {
   "property": "C109",
   "status": "partial",
   "theorems": [
    "AmrWind.Tag.field_accepts",
    "AmrWind.Tag.value_spec",
    "AmrWind.Tag.field_tag_spec",
    "AmrWind.Tag.jump_linear",
    "AmrWind.Tag.grad_mag_spec",
    "AmrWind.Tag.grad_mag_other",
    "AmrWind.Tag.curv_spec_partial",
    "AmrWind.Tag.curv_anisotropic_wrong",
    "AmrWind.Tag.curv_capped",
    "AmrWind.Tag.vort_spec",
    "AmrWind.Tag.vort_rotation",
    "AmrWind.Tag.q_trace",
    "AmrWind.Tag.q_spec",
    "AmrWind.Tag.q_nondim_spec",
    "AmrWind.Tag.q_unity",
    "AmrWind.Tag.overset_tag_spec",
    "AmrWind.Tag.tag_union",
    "AmrWind.Tag.curv_tag_iff"
   ],
   "note": "all but the curvature proved in full; the curvature is right on cells with equal sides (`curv_spec_partial`), wrong otherwise (`curv_anisotropic_wrong`), its value is capped and levels without a value are refined (`curv_capped`); `grad_error` is compared with differences (`jump_linear`); the manual misstates the value one (`q_unity`)"
  },
  {
   "property": "C110",
   "status": "partial",
   "theorems": [
    "AmrWind.Beam.lidar_accepted",
    "AmrWind.Beam.lidar_beam_spec",
    "AmrWind.Beam.lidar_at_table",
    "AmrWind.Beam.lidar_periodic_spec_partial",
    "AmrWind.Beam.lidar_single_entry",
    "AmrWind.Beam.lidar_points_spec",
    "AmrWind.Beam.lidar_offset_table_wrong",
    "AmrWind.Beam.lidar_long_way",
    "AmrWind.Beam.lidar_lags",
    "AmrWind.Beam.lidar_lags_example",
    "AmrWind.Beam.lidar_leaves_domain"
   ],
   "note": "direction, length, points and tables that begin at zero proved; false for the code: repeated tables that begin later (`lidar_offset_table_wrong`), azimuths across the full turn (`lidar_long_way`), the time of the sample (`lidar_lags`), the domain (`lidar_leaves_domain`)"
  },
  {
   "property": "C111",
   "status": "partial",
   "theorems": [
    "AmrWind.Beam.pattern_prisms",
    "AmrWind.Beam.scan_spec",
    "AmrWind.Beam.lag_bounded",
    "AmrWind.Beam.spin_keeps_up_partial",
    "AmrWind.Beam.lag_grows",
    "AmrWind.Beam.spin_falls_behind",
    "AmrWind.Beam.spin_behind_example",
    "AmrWind.Beam.pattern_unit",
    "AmrWind.Beam.beam_length",
    "AmrWind.Beam.way_angle_spec",
    "AmrWind.Beam.beam_at_rest",
    "AmrWind.Beam.hub_angles_spec",
    "AmrWind.Beam.beams_spec",
    "AmrWind.Beam.pattern_ahead_of_hub"
   ],
   "note": "clock, lengths and attitude proved; samples only every few steps make the scanner fall behind without bound (`spin_falls_behind`); the pattern runs ahead of the hub (`pattern_ahead_of_hub`)"
  },
  {
   "property": "C112",
   "status": "partial",
   "theorems": [
    "AmrWind.Beam.radar_point_numbers",
    "AmrWind.Beam.sweep_spec",
    "AmrWind.Beam.sweep_range",
    "AmrWind.Beam.sweep_speed",
    "AmrWind.Beam.line_average_spec",
    "AmrWind.Beam.line_average_bounds",
    "AmrWind.Beam.los_first_cone_partial",
    "AmrWind.Beam.los_other_cones",
    "AmrWind.Beam.los_other_cones_wrong",
    "AmrWind.Beam.los_prior_wrong",
    "AmrWind.Beam.los_output_first",
    "AmrWind.Beam.cone_points_overrun",
    "AmrWind.Beam.radar_falls_behind",
    "AmrWind.Beam.netcdf_needs_velocity",
    "AmrWind.Beam.cap_spec",
    "AmrWind.Beam.half_power_ok",
    "AmrWind.Beam.radar_rays",
    "AmrWind.Beam.cone_axis_spec",
    "AmrWind.Beam.cone_distance",
    "AmrWind.Beam.sweep_point_spec",
    "AmrWind.Beam.los_unit_spec",
    "AmrWind.Beam.half_power_weights",
    "AmrWind.Beam.cone_points_enough"
   ],
   "note": "sweep, cone, rule and the first cone of a step proved; false for the code: all other cones of a step use the rays of the first (`los_other_cones`, `los_other_cones_wrong`), values at the cones of the last step use the rays of the present one (`los_prior_wrong`), the cone points are read outside their list (`cone_points_overrun`), longer steps than the first (`radar_falls_behind`)"
  },
  {
   "property": "C113",
   "status": "partial",
   "theorems": [
    "AmrWind.Ext.points_partition",
    "AmrWind.Ext.tower_count",
    "AmrWind.Ext.box_contains_rotor_partial",
    "AmrWind.Ext.blade_widths",
    "AmrWind.Ext.tower_widths",
    "AmrWind.Ext.correction_applied",
    "AmrWind.Ext.exchange",
    "AmrWind.Ext.reaction",
    "AmrWind.Ext.reaction_other_density",
    "AmrWind.Ext.density_accepts",
    "AmrWind.Ext.correction_points",
    "AmrWind.Ext.rotor_frame_partial",
    "AmrWind.Ext.nacelle_correction",
    "AmrWind.Ext.nacelle_drag",
    "AmrWind.Ext.nacelle_none",
    "AmrWind.Ext.output_schedule",
    "AmrWind.Ext.blade_velocities_shifted",
    "AmrWind.Ext.correction_lags",
    "AmrWind.Ext.correction_reads_outside",
    "AmrWind.Ext.box_misses_spread",
    "AmrWind.Ext.rotor_frame_vertical",
    "AmrWind.Ext.nacelle_width"
   ],
   "note": "exchange, points, reaction, nacelle and frame proved; false for the code: the velocity points of the blades are shifted by one (`blade_velocities_shifted`), the blade correction uses velocities of the step before (`correction_lags`) and takes velocity points for force points (`correction_points`, `correction_reads_outside`), wide kernels leave the box (`box_misses_spread`), vertical shafts (`rotor_frame_vertical`)"
  },
  {
   "property": "C114",
   "status": "partial",
   "theorems": [
    "AmrWind.Ext.substeps_spec",
    "AmrWind.Ext.substeps_multiple",
    "AmrWind.Ext.fresh_run",
    "AmrWind.Ext.clocks_agree",
    "AmrWind.Ext.restart_run",
    "AmrWind.Ext.checkpoint_pairs_partial",
    "AmrWind.Ext.replay_calls",
    "AmrWind.Ext.replay_velocity",
    "AmrWind.Ext.replay_refused",
    "AmrWind.Ext.replay_of_run",
    "AmrWind.Ext.duration_covered_partial",
    "AmrWind.Ext.substeps_just_below",
    "AmrWind.Ext.checkpoint_unpaired",
    "AmrWind.Ext.checkpoint_by_time",
    "AmrWind.Ext.replay_start_differs",
    "AmrWind.Ext.replay_one_step_ahead",
    "AmrWind.Ext.replay_uses_older_run",
    "AmrWind.Ext.replay_appends",
    "AmrWind.Ext.duration_not_covered"
   ],
   "note": "fresh runs, clocks, checkpoints of the same interval and restarts proved; false for the code: a replayed turbine runs one step ahead of the flow (`replay_one_step_ahead`), its initial solution has other velocities (`replay_start_differs`), records of older runs are replayed (`replay_uses_older_run`, `replay_appends`), checkpoints may miss those of the flow (`checkpoint_unpaired`, `checkpoint_by_time`), the duration after a change of step size (`duration_not_covered`)"
  },
  {
   "property": "C115",
   "status": "partial",
   "theorems": [
    "AmrWind.Wbc.velocity_ghosts",
    "AmrWind.Wbc.blanked_iff",
    "AmrWind.Wbc.mac_ghost_terrain",
    "AmrWind.Wbc.density_single_phase",
    "AmrWind.Wbc.vof_ghosts",
    "AmrWind.Wbc.density_ghosts_partial",
    "AmrWind.Wbc.inactive",
    "AmrWind.Wbc.mac_faces",
    "AmrWind.Wbc.state_times",
    "AmrWind.Wbc.vof_density_types",
    "AmrWind.Wbc.face_values",
    "AmrWind.Wbc.mac_high_reads_second_ghost",
    "AmrWind.Wbc.mac_last_tangential_unset",
    "AmrWind.Wbc.mac_half_step_late",
    "AmrWind.Wbc.mac_short_step",
    "AmrWind.Wbc.profile_dropped"
   ],
   "note": "ghost cells of velocity, volume fraction and density, boundary faces, types and state times proved; false for the code: the advecting velocity gets the wave half a step late (`mac_half_step_late`), its ghost faces above the domain read one cell too far (`mac_high_reads_second_ghost`), the last faces beside the domain get none (`mac_last_tangential_unset`), a wind profile is dropped (`profile_dropped`), density needs the gas value on the face (`density_ghosts_partial`, `face_values`)"
  },
  {
   "property": "C116",
   "status": "partial",
   "theorems": [
    "AmrWind.W2a.target_interpolates_partial",
    "AmrWind.W2a.early_end_loops",
    "AmrWind.W2a.target_closed",
    "AmrWind.W2a.first_target",
    "AmrWind.W2a.restart_same_partial",
    "AmrWind.W2a.skip_reads_both",
    "AmrWind.W2a.update_times",
    "AmrWind.W2a.ranks_agree",
    "AmrWind.W2a.start_synced",
    "AmrWind.W2a.initial_velocity",
    "AmrWind.W2a.late_start_wrong",
    "AmrWind.W2a.second_record_start_wrong",
    "AmrWind.W2a.restart_after_loop",
    "AmrWind.W2a.restart_after_loop_aborts",
    "AmrWind.W2a.waves_freeze",
    "AmrWind.W2a.ranks_stop_iff"
   ],
   "note": "proved for runs that start at record 0, for restarts before the end of the file and for complete files; false for the code: with another start record the time of the record behind is in the time of the file (`late_start_wrong`, `second_record_start_wrong`), a restart past the end of the file begins the loop anew (`restart_after_loop`, `restart_after_loop_aborts`), a file that is too short stands still when one rank has no cells in the zones (`waves_freeze`); reading and spatial interpolation are those of the library Waves2AMR"
  },
  {
   "property": "C117",
   "status": "partial",
   "theorems": [
    "AmrWind.Start.query_last",
    "AmrWind.Start.begin_accepts",
    "AmrWind.Start.dry_run_events",
    "AmrWind.Start.dry_run_one_plot_partial",
    "AmrWind.Start.dry_run_checkpoint",
    "AmrWind.Start.dry_run_no_plot",
    "AmrWind.Start.dry_run_refused",
    "AmrWind.Start.restart_starts_at_once",
    "AmrWind.Start.new_run_order",
    "AmrWind.Start.files_once",
    "AmrWind.Start.initial_plot_steps_partial",
    "AmrWind.Start.initial_plot_fixed",
    "AmrWind.Start.initial_plot_missing",
    "AmrWind.Start.iterations_keep_flow",
    "AmrWind.Start.iterations_pressure",
    "AmrWind.Start.accepted_iff"
   ],
   "note": "false for the code: the misspelt option leaves checkpoints on in a dry run (`dry_run_checkpoint`), a delay suppresses its only plot file (`dry_run_no_plot`), an interval in time makes it stop with an error (`dry_run_refused`), and the initial state is not written at intervals of time with adapted steps and no initial iterations (`initial_plot_missing`); the rest is proved; post-processing is not part of these events"
  },
  {
   "property": "C118",
   "status": "partial",
   "theorems": [
    "AmrWind.Subvol.lround_close",
    "AmrWind.Subvol.placed",
    "AmrWind.Subvol.exact_accepted",
    "AmrWind.Subvol.levels_distinguished_partial",
    "AmrWind.Subvol.small_cells_wrong",
    "AmrWind.Subvol.regrid_lost",
    "AmrWind.Subvol.history_same",
    "AmrWind.Subvol.history_chunk",
    "AmrWind.Subvol.sizes_spec"
   ],
   "note": "false for the code where cells are smaller than the tolerance, which is a length of 1e-4: the coarsest level is then taken whatever was asked for (`small_cells_wrong`); a regrid that uncovers the part stops the run (`regrid_lost`); chunking of the box by the library and the NetCDF/plot file format are not modelled"
  },
  {
   "property": "C119",
   "status": "partial",
   "theorems": [
    "AmrWind.Inflow.boundary_faces_partial",
    "AmrWind.Inflow.other_faces",
    "AmrWind.Inflow.grids_agree",
    "AmrWind.Inflow.abl_leaves_faces",
    "AmrWind.Inflow.abl_sets_faces",
    "AmrWind.Inflow.inout_enters_unprescribed",
    "AmrWind.Inflow.projection_ghosts",
    "AmrWind.Inflow.projection_rest",
    "AmrWind.Inflow.projection_increment"
   ],
   "note": "false for the code on sides that let fluid both in and out: fluid can enter with a velocity nobody gave (`inout_enters_unprescribed`), and with inflow from files or a modulated power law the faces of all sides keep the solver's extrapolation (`abl_leaves_faces`); what the file and wave boundaries add is C115 and the boundary plane properties; the exchange of ghost cells is not modelled"
  },
  {
   "property": "C120",
   "status": "partial",
   "theorems": [
    "AmrWind.Cosim.message_read_partial",
    "AmrWind.Cosim.early_ignored",
    "AmrWind.Cosim.short_undefined",
    "AmrWind.Cosim.extra_turbine_misread",
    "AmrWind.Cosim.empty_fails",
    "AmrWind.Cosim.message_sent",
    "AmrWind.Cosim.publications",
    "AmrWind.Cosim.step_late",
    "AmrWind.Cosim.step_next",
    "AmrWind.Cosim.wind_from",
    "AmrWind.Cosim.turbine_faces_wind",
    "AmrWind.Cosim.reported_range_partial",
    "AmrWind.Cosim.reported_turns",
    "AmrWind.Cosim.reported_asked",
    "AmrWind.Cosim.north_east_beyond",
    "AmrWind.Cosim.power_momentum",
    "AmrWind.Cosim.power_undefined",
    "AmrWind.Cosim.controller_gets_all",
    "AmrWind.Cosim.own_turbine_blocks",
    "AmrWind.Cosim.start_values",
    "AmrWind.Cosim.leading_comma"
   ],
   "note": "false for the code: two more fields are needed than there is information in and a shorter message reads from an empty list (`short_undefined`), a message for more turbines is misread (`extra_turbine_misread`), values take effect one step late (`step_late`), directions from 0 to 90 are reported beyond 360 (`north_east_beyond`), a thrust coefficient above 1 has no power (`power_undefined`), a rank sends to itself before it receives (`own_turbine_blocks`); `atof`, formatting and the federation are parameters; a message that begins with a comma is one empty field (`leading_comma`)"
  },
  {
   "property": "C121",
   "status": "partial",
   "theorems": [
    "AmrWind.Kyn.point_is_node",
    "AmrWind.Kyn.node_is_point",
    "AmrWind.Kyn.places_spec",
    "AmrWind.Kyn.loads_reach",
    "AmrWind.Kyn.velocities_reach",
    "AmrWind.Kyn.orientation_rotation",
    "AmrWind.Kyn.orientation_sense",
    "AmrWind.Kyn.section_energy",
    "AmrWind.Kyn.matrices_symmetric",
    "AmrWind.Kyn.stiffness_entry",
    "AmrWind.Kyn.hub_energy",
    "AmrWind.Kyn.flow_step",
    "AmrWind.Kyn.run_spec_partial",
    "AmrWind.Kyn.begin_spec",
    "AmrWind.Kyn.controller_late",
    "AmrWind.Kyn.restart_starts_over",
    "AmrWind.Kyn.units",
    "AmrWind.Kyn.diameter_without_hub"
   ],
   "note": "false for the code: the controller is told a time one step behind the structure (`controller_late`), a restarted flow starts its turbines over (`restart_starts_over`), the diameter leaves out the hub (`diameter_without_hub`); the structural solver is a parameter, reading WindIO files is C142, single precision is not modelled"
  },
  {
   "property": "C122",
   "status": "partial",
   "theorems": [
    "AmrWind.Iter.start_kept",
    "AmrWind.Iter.step_start",
    "AmrWind.Iter.momentum_step",
    "AmrWind.Iter.faces_from_mean",
    "AmrWind.Iter.scalars_half",
    "AmrWind.Iter.converged_midpoint",
    "AmrWind.Iter.fixed_forever",
    "AmrWind.Iter.mol_one_iteration",
    "AmrWind.Iter.reported_change_partial",
    "AmrWind.Iter.zero_change_not_converged",
    "AmrWind.Iter.initial_restores",
    "AmrWind.Iter.prescribed_step",
    "AmrWind.Iter.prescribed_stale",
    "AmrWind.Iter.prescribed_pure",
    "AmrWind.Iter.prescribed_lost",
    "AmrWind.Iter.divtau_left_out",
    "AmrWind.Iter.density_seen",
    "AmrWind.Iter.predictor_force",
    "AmrWind.Iter.post_solve_states",
    "AmrWind.Iter.scalar_force",
    "AmrWind.Iter.explicit_step"
   ],
   "note": "false for the code: a reported change of zero does not mean that the iterations have converged, as scalars and pressure are not looked at (`zero_change_not_converged`); with prescribed velocity the source and viscous terms left by the initial iterations are added in every step (`prescribed_stale`), and with more than one iteration the velocity is solved for (`prescribed_lost`); ghost cells, mesh mapping and overset are not in this model"
  },
  {
   "property": "C123",
   "status": "proved",
   "theorems": [
    "AmrWind.Case.sc_start",
    "AmrWind.Case.sc_carried",
    "AmrWind.Case.sc_period",
    "AmrWind.Case.sc_shape",
    "AmrWind.Case.vp_scalar_shape",
    "AmrWind.Case.vp_scalar_returns",
    "AmrWind.Case.sc_error"
   ],
   "note": "real arithmetic; the face velocities are those of C103; with overset or mapping the error is the root mean square times a factor that `sc_error` states"
  },
  {
   "property": "C124",
   "status": "partial",
   "theorems": [
    "AmrWind.Small.sources_merged",
    "AmrWind.Small.sources_once",
    "AmrWind.Small.free_stream",
    "AmrWind.Small.tracer_marks_partial",
    "AmrWind.Small.overset_not_marked",
    "AmrWind.Small.overset_marks",
    "AmrWind.Small.perturbed_when",
    "AmrWind.Small.perturbed_where_partial",
    "AmrWind.Small.perturbed_height",
    "AmrWind.Small.start_level_ignored",
    "AmrWind.Small.perturbed_twice",
    "AmrWind.Small.no_box",
    "AmrWind.Small.hybrid_viscosity"
   ],
   "note": "false in part: overset cells are never marked (`overset_not_marked`, the blanking is looked for among the real fields), the first level is ignored (`start_level_ignored`), the two sources of a step use different random numbers (`perturbed_twice`), and under stable stratification the hybrid rate corresponds to a larger viscosity (`hybrid_viscosity`); the distribution of the random numbers is not modelled"
  },
  {
   "property": "C125",
   "status": "partial",
   "theorems": [
    "AmrWind.Solver.options_layered",
    "AmrWind.Solver.settings_reach_partial",
    "AmrWind.Solver.bottom_named",
    "AmrWind.Solver.unknown_solver_silent",
    "AmrWind.Solver.bottom_maxiter_ignored",
    "AmrWind.Solver.mac_order_ignored",
    "AmrWind.Solver.nodal_interface",
    "AmrWind.Solver.default_tolerances"
   ],
   "note": "layering and hand-over proved for all other options; false for the code: the largest number of bottom iterations is never handed over (`bottom_maxiter_ignored`), the projection of the faces ignores its order (`mac_order_ignored`), unknown bottom solvers, the documented petsc among them, are accepted in silence (`unknown_solver_silent`), the defaults differ from the manual (`default_tolerances`)"
  },
  {
   "property": "C126",
   "status": "partial",
   "theorems": [
    "AmrWind.Airfoil.text_table_partial",
    "AmrWind.Airfoil.openfast_table_partial",
    "AmrWind.Airfoil.openfast_refused",
    "AmrWind.Airfoil.kind_spec",
    "AmrWind.Airfoil.polar_at_row",
    "AmrWind.Airfoil.polar_bounded",
    "AmrWind.Airfoil.truncated_accepted",
    "AmrWind.Airfoil.truncated_no_lift",
    "AmrWind.Airfoil.three_columns_wrong",
    "AmrWind.Airfoil.comment_empties",
    "AmrWind.Airfoil.empty_undefined"
   ],
   "note": "reading and look-up proved for files that are complete; false for the code: a file that ends early is accepted and the wing has neither lift nor drag at positive angles (`truncated_accepted`, `truncated_no_lift`), a file of three columns is misread (`three_columns_wrong`), a comment on NumAlf empties the table (`comment_empties`)"
  },
  {
   "property": "C127",
   "status": "partial",
   "theorems": [
    "AmrWind.Mph.density_follows_partial",
    "AmrWind.Mph.density_between",
    "AmrWind.Mph.reference_kept",
    "AmrWind.Mph.start_interface",
    "AmrWind.Mph.starts_iff",
    "AmrWind.Mph.report_spec",
    "AmrWind.Mph.restart_keeps",
    "AmrWind.Mph.own_update",
    "AmrWind.Mph.levelset_never_starts",
    "AmrWind.Mph.change_forgotten",
    "AmrWind.Mph.restart_resets_pressure",
    "AmrWind.Mph.holes_not_kept"
   ],
   "note": "proved for the volume of fluid method; false for the code: no run with the level set as its interface starts, it dereferences a null pointer (`levelset_never_starts`); the printed change begins anew with every restart (`change_forgotten`); with `initialize_pressure` a restart replaces the pressure of the file (`restart_resets_pressure`); density and level set go on in cells blanked by overset (`holes_not_kept`)"
  },
  {
   "property": "C128",
   "status": "partial",
   "theorems": [
    "AmrWind.Mms.pars_spec",
    "AmrWind.Mms.source_everywhere",
    "AmrWind.Mms.error_zero",
    "AmrWind.Mms.error_is_rms",
    "AmrWind.Mms.initial_exact",
    "AmrWind.Mms.log_lines_partial",
    "AmrWind.Mms.nu_replaced",
    "AmrWind.Mms.log_time_early",
    "AmrWind.Mms.log_restart_loses"
   ],
   "note": "source, error and initial state proved, the library is a parameter; false for the code: a line of the log has the time of the start of its step (`log_time_early`), and a restart truncates the log (`log_restart_loses`)"
  },
  {
   "property": "C129",
   "status": "partial",
   "theorems": [
    "AmrWind.Nc.put_get",
    "AmrWind.Nc.put_elsewhere",
    "AmrWind.Nc.mem_indices",
    "AmrWind.Nc.series_holds",
    "AmrWind.Nc.has_iff",
    "AmrWind.Nc.dim_has_name",
    "AmrWind.Nc.def_dim_found",
    "AmrWind.Nc.def_array_found",
    "AmrWind.Nc.def_group_found",
    "AmrWind.Nc.all_vars_spec",
    "AmrWind.Nc.all_dims_iff_partial",
    "AmrWind.Nc.close_once",
    "AmrWind.Nc.all_dims_wrong",
    "AmrWind.Nc.way_up_wrong",
    "AmrWind.Nc.group_name_wrong",
    "AmrWind.Nc.whole_variable"
   ],
   "note": "the library is a small model of its documentation; false for the code: the test for the file itself is inverted, so `parent` and `root` of a file dereference a null pointer and those of a group return the group (`way_up_wrong`); names of groups end with zero characters and `full_name` lets the library write past its buffer (`group_name_wrong`); `all_dims` of a group lists dimensions of the file (`all_dims_wrong`)"
  },
  {
   "property": "C130",
   "status": "partial",
   "theorems": [
    "AmrWind.Cfl.conv_greatest",
    "AmrWind.Cfl.diff_greatest",
    "AmrWind.Cfl.force_greatest",
    "AmrWind.Cfl.same_everywhere",
    "AmrWind.Cfl.step_limits_partial",
    "AmrWind.Cfl.step_limits_force",
    "AmrWind.Cfl.prescribed_greatest",
    "AmrWind.Cfl.prescribed_limits",
    "AmrWind.Cfl.prescribed_too_long"
   ],
   "note": "proved for runs that solve for the velocity, outside the delay and the start from rest; false with prescribed velocities: at the free surface the limit is twice that of other runs and diffusion is not limited at all (`prescribed_too_long`); the diffusion of scalars does not enter in any run"
  },
  {
   "property": "C131",
   "status": "partial",
   "theorems": [
    "AmrWind.Bplane.box_found_again",
    "AmrWind.Bplane.recorded_inside",
    "AmrWind.Bplane.recorded_periodic",
    "AmrWind.Bplane.recorded_wall",
    "AmrWind.Bplane.replay_spec",
    "AmrWind.Bplane.replay_periodic_partial",
    "AmrWind.Bplane.replay_wall",
    "AmrWind.Bplane.header_accepted_iff",
    "AmrWind.Bplane.header_accepted",
    "AmrWind.Bplane.file_levels",
    "AmrWind.Bplane.layout_disjoint",
    "AmrWind.Bplane.own_components",
    "AmrWind.Bplane.recording_run",
    "AmrWind.Bplane.other_runs",
    "AmrWind.Bplane.last_recording",
    "AmrWind.Bplane.format_used",
    "AmrWind.Bplane.header_span"
   ],
   "note": "proved for files, headers, boxes and components, and for the values at faces that were periodic in the recording; false at faces that were not: the layer beyond the face is recorded as 1.0e13 (`recorded_wall`, `replay_wall`); cells of a refined level of the replay outside the recorded level are left unset and the header is not checked for this (`replay_spec`); the text of the headers is not modelled"
  },
  {
   "property": "C132",
   "status": "proved",
   "theorems": [
    "AmrWind.Waves.stokes_free_surface"
   ],
   "note": "over the reals; needs order * wavenumber * depth below the cap the code puts on the arguments of the hyperbolic functions (50 pi), so depths below 25 wave lengths over the order; the wave length is given here, the search for it from the period is C61"
  },
  {
   "property": "C133",
   "status": "partial",
   "theorems": [
    "AmrWind.Regrid.regrid_mesh",
    "AmrWind.Regrid.regrid_keeps",
    "AmrWind.Regrid.regrid_fresh",
    "AmrWind.Regrid.regrid_loses",
    "AmrWind.Regrid.masks_one",
    "AmrWind.Regrid.old_state_restored",
    "AmrWind.Regrid.regrids_range",
    "AmrWind.Regrid.regrids_conserve_partial",
    "AmrWind.Regrid.coarsening_changes_integral",
    "AmrWind.Regrid.linear_conservative",
    "AmrWind.Regrid.constant_conservative",
    "AmrWind.Regrid.constant_range",
    "AmrWind.Regrid.divergence_mean",
    "AmrWind.Regrid.advection_means",
    "AmrWind.Regrid.advection_others",
    "AmrWind.Regrid.step_means",
    "AmrWind.Regrid.square_source_breaks_means"
   ],
   "note": "proved for the transported fields, density, the pressure gradient and averages; not so for fields without the flag, which become zero on every level that changes (regrid_loses; of these the source of the Burggraf flow is never set again), and the integral is kept only if refined cells hold the mean of the cells in them, which the code never enforces for the solution: advection keeps it, a source that is not linear does not; ghost cells are not modelled"
  },
  {
   "property": "C134",
   "status": "partial",
   "theorems": [
    "AmrWind.Hist.round_trip",
    "AmrWind.Hist.refused_iff",
    "AmrWind.Hist.missing_initial",
    "AmrWind.Hist.restart_continues_partial",
    "AmrWind.Hist.setup_everywhere",
    "AmrWind.Hist.init_only",
    "AmrWind.Hist.regained_on_restart",
    "AmrWind.Hist.map_regained",
    "AmrWind.Hist.always_there",
    "AmrWind.Hist.there_on_same_mesh",
    "AmrWind.Hist.lost_on_regrid",
    "AmrWind.Hist.lost_on_restart",
    "AmrWind.Hist.gone_after_regrid",
    "AmrWind.Hist.gone_after_restart",
    "AmrWind.Hist.start_action_repeated"
   ],
   "note": "proved: round trip, refusal, continuation for steps that depend on saved fields and on what the set-up gives, and the fields that are set after each change of the mesh; false of the code and refuted: the level set of immersed bodies and the source of the Burggraf flow after a change of the mesh, these sources and the mesh map on levels that a restart adds, and fields that an action of the start changes again (relaxation of waves); ghost cells, boxes and processes are not modelled, what a step reads is a hypothesis"
  },
  {
   "property": "C135",
   "status": "partial",
   "theorems": [
    "AmrWind.Expl.explicit_bounded",
    "AmrWind.Expl.chosen_step_bounded_partial",
    "AmrWind.Expl.air_water_diverges",
    "AmrWind.Expl.temperature_diverges",
    "AmrWind.Expl.given_step_bounded_partial",
    "AmrWind.Expl.given_side_undershoots"
   ],
   "note": "proved with uniform density for every diffusivity of at most ratio times the viscosity while cfl is at most 1/ratio (ratio 1 for the momentum), both schemes; false of the code and refuted with variable density (air beside water) and for scalars that diffuse faster than the momentum when cfl exceeds the Prandtl number; beside sides with given values proved for cfl up to two thirds, false for cfl above 6/7, the default being 1 (given_side_undershoots); the tensor operator, mesh maps and refined levels are not modelled"
  },
  {
   "property": "C136",
   "status": "proved",
   "theorems": [
    "AmrWind.Steady.balance_kept",
    "AmrWind.Steady.uniform_balanced",
    "AmrWind.Steady.rest_balanced",
    "AmrWind.Steady.row_consistent",
    "AmrWind.Steady.wind_balanced"
   ],
   "note": "the operators of AMReX and AMReX-Hydro (reconstruction, both projections, linear solves) are parameters with stated requirements (exact on uniform fields, projections leave fields without divergence, solves return the solution), met by a concrete instance; without an equation for density and without mesh map"
  },
  {
   "property": "C137",
   "status": "partial",
   "theorems": [
    "AmrWind.FieldOps.operations",
    "AmrWind.FieldOps.saxpy_undone",
    "AmrWind.FieldOps.copy_within_partial",
    "AmrWind.FieldOps.copy_up_smears",
    "AmrWind.FieldOps.division_partial",
    "AmrWind.FieldOps.division_by_own_component",
    "AmrWind.FieldOps.combination",
    "AmrWind.FieldOps.lower_bound_spec",
    "AmrWind.FieldOps.global_max",
    "AmrWind.FieldOps.global_max_decomposition",
    "AmrWind.FieldOps.normalize_spec",
    "AmrWind.FieldOps.defined_iff"
   ],
   "note": "all parts proved for sources other than the destination; missing because false of the code: with one field as source and destination a copy to higher overlapping components repeats the first (copy_up_smears) and a division by the first own component divides nothing else (division_by_own_component)"
  },
  {
   "property": "C138",
   "status": "partial",
   "theorems": [
    "AmrWind.Fill.levels_any_order",
    "AmrWind.Fill.fill_keeps",
    "AmrWind.Fill.ghost_is_neighbour",
    "AmrWind.Fill.ghost_beyond_side",
    "AmrWind.Fill.decomposition_free_partial",
    "AmrWind.Fill.stencil_free",
    "AmrWind.Fill.physbc_after_fill",
    "AmrWind.Fill.fill_bounded_partial",
    "AmrWind.Fill.fill_uniform",
    "AmrWind.Fill.const_fill_overwrites",
    "AmrWind.Fill.ghost_beyond_slope",
    "AmrWind.Fill.slope_exact",
    "AmrWind.Fill.slope_overshoots",
    "AmrWind.Fill.thin_boxes_differ",
    "AmrWind.Fill.siblings_val",
    "AmrWind.Fill.faces_kept",
    "AmrWind.Fill.face_is_neighbour",
    "AmrWind.Fill.face_beyond_side",
    "AmrWind.Fill.faces_decomposition_free",
    "AmrWind.Fill.planes_extrapolated",
    "AmrWind.Fill.face_from_coarse",
    "AmrWind.Fill.planes_used"
   ],
   "note": "proved for fields in cells and for velocities on faces filled together with periodic, extrapolated (order zero and hoextrap) and given sides, with the library's filling of one level modelled by its contract; fields on nodes are not filled by this code; with recorded inflow planes the velocities on ghost faces beyond the inflow are extrapolated, not the recorded ones (planes_extrapolated); with hoextrap the range of the data is left (slope_overshoots) and boxes thinner than three cells give other values (thin_boxes_differ); false of the fill with a constant, which replaces the data of the boxes as well (const_fill_overwrites)"
  },
  {
   "property": "C139",
   "status": "partial",
   "theorems": [
    "AmrWind.ActOut.record_written",
    "AmrWind.ActOut.records_written",
    "AmrWind.ActOut.layout_matches",
    "AmrWind.ActOut.due_spec",
    "AmrWind.ActOut.zero_frequency",
    "AmrWind.ActOut.stamp_injective",
    "AmrWind.ActOut.launch_spec",
    "AmrWind.ActOut.restart_complete_partial",
    "AmrWind.ActOut.same_start_loses",
    "AmrWind.ActOut.velocity_behind",
    "AmrWind.ActOut.wing_positions_stale"
   ],
   "note": "proved for the NetCDF histories of wings, disks and turbines, with the computation of the values a function of the state of the flow; missing: what the coupled turbine program writes itself; false of a frequency of zero (division by zero for wings, disks and bodies), of velocities, which are those of the beginning of the step under the time of its end (velocity_behind), of the positions of moving wings, which are written once (wing_positions_stale), and of a second run from the same step, which begins the file anew (same_start_loses)"
  },
  {
   "property": "C140",
   "status": "partial",
   "theorems": [
    "AmrWind.Prog.cutting_free_partial",
    "AmrWind.Prog.memory_free",
    "AmrWind.Prog.parts_pass",
    "AmrWind.Prog.steps_pass",
    "AmrWind.Prog.fill_then_loop",
    "AmrWind.Prog.check_append",
    "AmrWind.Prog.kosovic_refused",
    "AmrWind.Prog.kosovic_depends"
   ],
   "note": "proved in exact arithmetic with exact linear solves; missing: the order of floating-point additions and the error of solvers; false of the nonlinear term of Kosovic's model, whose divergence reads ghost cells of a tensor that were never filled (kosovic_depends)"
  },
  {
   "property": "C141",
   "status": "partial",
   "theorems": [
    "AmrWind.Eff.faces_mean_partial",
    "AmrWind.Eff.shared_faces_partial",
    "AmrWind.Eff.no_memory_partial",
    "AmrWind.Eff.stops_iff",
    "AmrWind.Eff.half_at_box_faces",
    "AmrWind.Eff.amd_without_conduction",
    "AmrWind.Eff.s94_laminar"
   ],
   "note": "proved for all models and equations but those where it is false of the code: for temperature with AMD and for tke and sdr with the k-omega models ghost cells of the coefficient are never set, so on faces between boxes each box has half the coefficient of its own cell (half_at_box_faces); with AMD the laminar diffusivity of heat is left out (amd_without_conduction); OneEqKsgsS94 computes no turbulent viscosity (s94_laminar). Mapped meshes are not modelled."
  },
  {
   "property": "C142",
   "status": "partial",
   "theorems": [
    "AmrWind.Wio.axis_partial",
    "AmrWind.Wio.axis_defined_iff",
    "AmrWind.Wio.axis_cut",
    "AmrWind.Wio.tower_base",
    "AmrWind.Wio.twist_points",
    "AmrWind.Wio.tower_partial",
    "AmrWind.Wio.tower_thickness_wrong",
    "AmrWind.Wio.polars_partial",
    "AmrWind.Wio.polars_wrong",
    "AmrWind.Wio.blade_sections",
    "AmrWind.Wio.section_energy",
    "AmrWind.Wio.bodies_energy"
   ],
   "note": "proved where tables that belong together are given at the same places; false of the code otherwise: places of y and z of an axis, of the thickness of the tower and of drag and moment are never read (axis_cut, tower_thickness_wrong, polars_wrong), and shorter lists are read beyond their end (axis_defined_iff, second part of tower_thickness_wrong). Only masses and stiffnesses of blades are checked (blade_sections). The YAML reader and the solver are not modelled."
  },
  {
   "property": "C143",
   "status": "partial",
   "theorems": [
    "AmrWind.Tools.coarsen_partial",
    "AmrWind.Tools.average_keeps_total",
    "AmrWind.Tools.average_accurate",
    "AmrWind.Tools.cells_accepted",
    "AmrWind.Tools.small_mesh_accepted",
    "AmrWind.Tools.coarsen_drops_levels",
    "AmrWind.Tools.refine_only_one",
    "AmrWind.Tools.refine_spec",
    "AmrWind.Tools.refine_coarsen"
   ],
   "note": "false of the code: the file written by coarsen-chkpt has the new level only, all existing ones are dropped (coarsen_drops_levels); the check for small meshes accepts every even number of cells (small_mesh_accepted); the time step in the header is that of the inputs. Fields at nodes are modelled for the coarser file only; the interpolation and the boxes made by AMReX are parameters."
  },
  {
   "property": "C144",
   "status": "partial",
   "theorems": [
    "AmrWind.Tools.compare_partial",
    "AmrWind.Tools.linf_largest",
    "AmrWind.Tools.ratio_four_masks",
    "AmrWind.Tools.first_variable_only",
    "AmrWind.Tools.cells_unweighted"
   ],
   "note": "proved for levels finer by two and the first variable; false of the code otherwise: the mask of covered cells takes the ratio for two whatever it is (ratio_four_masks), only the first variable is compared (first_variable_only), cells of all levels count the same in L2error (cells_unweighted)"
  },
  {
   "property": "C145",
   "status": "partial",
   "theorems": [
    "AmrWind.Tools.table_rows",
    "AmrWind.Tools.columns",
    "AmrWind.Tools.checkpoint_table_partial",
    "AmrWind.Tools.checkpoint_table_levels",
    "AmrWind.Tools.last_level_read",
    "AmrWind.Tools.cell_size_levels"
   ],
   "note": "proved for plotfiles and for checkpoints with one level; for checkpoints with more the values are those of the last level at cells with the same numbers (checkpoint_table_levels); cell sizes of finer levels are those of the base level (cell_size_levels). One process; the reading of nodal pressure into cells by AMReX is not modelled."
  },
  {
   "property": "C146",
   "status": "partial",
   "theorems": [
    "AmrWind.Bscript.boxes_defined_iff",
    "AmrWind.Bscript.boxes_low",
    "AmrWind.Bscript.boxes_high_iff",
    "AmrWind.Bscript.high_ratio_unread",
    "AmrWind.Bscript.sizes_iff",
    "AmrWind.Bscript.sizes_same_ratios",
    "AmrWind.Bscript.sizes_mixed",
    "AmrWind.Bscript.place_partial",
    "AmrWind.Bscript.place_mixed",
    "AmrWind.Bscript.generated_read_partial",
    "AmrWind.Bscript.default_ratios"
   ],
   "note": "proved for low faces with equal ratios and for high faces with ratios two; false of the code otherwise: at high faces the box is off beyond any other ratio and then nothing is read (boxes_high_iff, high_ratio_unread); sizes of finer cells are wrong when ratios differ (sizes_iff, sizes_mixed, place_mixed)"
  },
  {
   "property": "C147",
   "status": "partial",
   "theorems": [
    "AmrWind.Bscript.refine_bounds",
    "AmrWind.Bscript.refine_boxes_partial",
    "AmrWind.Bscript.refine_high_unread",
    "AmrWind.Bscript.refine_accepted",
    "AmrWind.Bscript.refine_linear",
    "AmrWind.Bscript.refine_mean",
    "AmrWind.Bscript.refined_read_partial",
    "AmrWind.Bscript.recorded_bounds"
   ],
   "note": "proved for low faces; false of the code at high faces: the cells across the face keep their coarse numbers, the run accepts the file and reads nothing from it (refine_high_unread, refine_accepted). One grid for each level; the interpolator of SciPy is modelled as linear interpolation in each direction."
  },
  {
   "property": "C148",
   "status": "partial",
   "theorems": [
    "AmrWind.Sscript.value_name",
    "AmrWind.Sscript.series_order_partial",
    "AmrWind.Sscript.series_three_wrong",
    "AmrWind.Sscript.frame_perm",
    "AmrWind.Sscript.table_of_sampler",
    "AmrWind.Sscript.series_row",
    "AmrWind.Sscript.sampler_index",
    "AmrWind.Sscript.lost_probe_wrong"
   ],
   "note": "order of steps proved for names of at most two lengths; false of the code for three: the lengths tried go up by 0, 1, 2, ... so that steps are lost and others repeated (series_three_wrong). An unknown label gives the first sampler (sampler_index); a sampler that lost a probe shows values of the one before (lost_probe_wrong)."
  },
  {
   "property": "C149",
   "status": "partial",
   "theorems": [
    "AmrWind.Cscript.compare_within",
    "AmrWind.Cscript.compare_exact",
    "AmrWind.Cscript.nan_accepted",
    "AmrWind.Cscript.compare_iff"
   ],
   "note": "proved for files of numbers; false for values that are not numbers: sums of data frames leave them out, so a file with any values replaced by them is accepted with no tolerance (nan_accepted)."
  },
  {
   "property": "C150",
   "status": "partial",
   "theorems": [
    "AmrWind.Cscript.convert_defined_iff",
    "AmrWind.Cscript.convert_values",
    "AmrWind.Cscript.rows_in_order_partial",
    "AmrWind.Cscript.rows_eleven_wrong"
   ],
   "note": "values proved for every order of attributes; that row r is variable r proved for up to ten variables and false for eleven, as attributes come in the order of text (rows_eleven_wrong). The names of rows are not saved."
  },
  {
   "property": "C151",
   "status": "partial",
   "theorems": [
    "AmrWind.Iscript.found_iff",
    "AmrWind.Iscript.found_means",
    "AmrWind.Iscript.found_window",
    "AmrWind.Iscript.speed_of_mean",
    "AmrWind.Iscript.profile_read",
    "AmrWind.Iscript.profile_unused_wrong",
    "AmrWind.Iscript.update_none",
    "AmrWind.Iscript.update_once",
    "AmrWind.Iscript.values_used_partial",
    "AmrWind.Iscript.old_value_wrong",
    "AmrWind.Iscript.second_run_wrong",
    "AmrWind.Iscript.others_kept"
   ],
   "note": "means and other entries proved; values are used only if no later line sets the same name: false in general (old_value_wrong), so a second run changes nothing (second_run_wrong), and without a line of source terms nothing is written (update_none). The profile is written well (profile_read) but the solver does not read it with these settings (profile_unused_wrong)."
  },
  {
   "property": "C152",
   "status": "partial",
   "theorems": [
    "AmrWind.IO.asc_defined_iff",
    "AmrWind.IO.asc_columns",
    "AmrWind.IO.asc_names_clash_wrong"
   ],
   "note": "columns and names proved; different columns can have the same name: false for a vector and a scalar whose name is that of its component (asc_names_clash_wrong)."
  },
  {
   "property": "C153",
   "status": "partial",
   "theorems": [
    "AmrWind.Hscript.parse_partial",
    "AmrWind.Hscript.underscore_wrong",
    "AmrWind.Hscript.path_iff",
    "AmrWind.Hscript.headers_partial",
    "AmrWind.Hscript.missing_wrong",
    "AmrWind.Hscript.time_partial",
    "AmrWind.Hscript.time_twice_wrong"
   ],
   "note": "proved for names of fields without underscore, every field on every side, steps that come once in the table and paths without _H; false for the others: a field with an underscore is read as another one or stops the script (underscore_wrong), every _H in the path is taken out (path_iff), a step that comes twice gets its first time (time_twice_wrong)."
  },
  {
   "property": "C154",
   "status": "partial",
   "theorems": [
    "AmrWind.Win.slice_window",
    "AmrWind.Win.accepted_iff",
    "AmrWind.Win.positions_in_turn",
    "AmrWind.Win.velocities_in_turn",
    "AmrWind.Win.written_then_read",
    "AmrWind.Win.rest_partial",
    "AmrWind.Win.rest_behind_wrong",
    "AmrWind.Win.before_wrong"
   ],
   "note": "proved for windows inside of the array, and for the arrays of actuators for all numbers of points; that slices outside are refused is false without assertions, for a start before the array also with them, as the sum wraps around (before_wrong), and a start at or behind the end differs between the builds (rest_behind_wrong)."
  },
  {
   "property": "C155",
   "status": "proved",
   "theorems": [
    "AmrWind.Select.start_iff",
    "AmrWind.Select.code_start_iff",
    "AmrWind.Select.keys_apart",
    "AmrWind.Select.hyphen_wrong"
   ],
   "note": "for every registry of names without hyphens, which the classes of the code are; for names with hyphens it would fail (hyphen_wrong)."
  }
 ]
}