{
 "claims": [
  {
   "property": "C01",
   "status": "proved",
   "theorems": [
    "Lcode.Cfg.last_write_wins",
    "Lcode.Cfg.get_after_history",
    "Lcode.Cfg.getfloat_after_history",
    "Lcode.Cfg.getint_after_history",
    "Lcode.Cfg.getbool_after_history",
    "Lcode.Cfg.getbool_of_bool",
    "Lcode.Cfg.unwritten_unchanged",
    "Lcode.Cfg.geometry_never_circ",
    "Lcode.Cfg.backend_after_history",
    "Lcode.Cfg.init_lookup",
    "Lcode.Cfg.copy_values",
    "Lcode.Cfg.copy_forgets_backend"
   ],
   "note": "copy_forgets_backend is a finding: copy() of a GPU config is a numpy config."
  },
  {
   "property": "C02",
   "status": "proved",
   "theorems": [
    "Lcode.Cfg.goodSize_iff",
    "Lcode.Cfg.adjusted_grid",
    "Lcode.Cfg.adjust3d_succeeds",
    "Lcode.Cfg.adjust3d_fails",
    "Lcode.Cfg.adjusted_fineness",
    "Lcode.Cfg.adjust3d_skips_capitals"
   ],
   "note": "Totality holds up to 18301 requested cells; adjust3d_fails proves the exception at 18302; '3D' in capitals skips the adjustment (finding)."
  },
  {
   "property": "C03",
   "status": "proved",
   "theorems": [
    "Lcode.Cfg.factorize_spec"
   ],
   "note": ""
  },
  {
   "property": "C04",
   "status": "proved",
   "theorems": [
    "Lcode.Beam2D.source_complete",
    "Lcode.Beam2D.source_layers",
    "Lcode.Beam2D.source_delivers_once",
    "Lcode.Beam2D.source_blocked_by_head"
   ],
   "note": "source_complete covers every beam without hypotheses; source_blocked_by_head is a finding: one particle ahead of the window blocks the whole source."
  },
  {
   "property": "C05",
   "status": "proved",
   "theorems": [
    "Lcode.Beam2D.append_rows",
    "Lcode.Beam2D.concat_rows",
    "Lcode.Beam2D.getSubslice_rows",
    "Lcode.Beam2D.sort_rows",
    "Lcode.Beam2D.split_rows",
    "Lcode.Beam2D.split_conserves"
   ],
   "note": ""
  },
  {
   "property": "C06",
   "status": "proved",
   "theorems": [
    "Lcode.Beam2D.substeps_exact",
    "Lcode.Beam2D.substeps_need_positive_limit"
   ],
   "note": ""
  },
  {
   "property": "C07",
   "status": "proved",
   "theorems": [
    "Lcode.Beam2D.particles_conserved",
    "Lcode.Beam2D.window_accounted",
    "Lcode.Beam2D.drained_finished",
    "Lcode.Beam2D.last_layer_dropped"
   ],
   "note": "last_layer_dropped (finding): the last layer is always among the in-flight particles, which the code discards."
  },
  {
   "property": "C08",
   "status": "proved",
   "theorems": [
    "Lcode.Beam2D.weights_conserve",
    "Lcode.Beam2D.layout_conserves",
    "Lcode.Beam2D.sweep_conserves_charge",
    "Lcode.Beam2D.layout_pointwise",
    "Lcode.Beam2D.sweep_pointwise"
   ],
   "note": ""
  },
  {
   "property": "C09",
   "status": "proved",
   "theorems": [
    "Lcode.Beam2D.push_causal",
    "Lcode.Beam2D.push_strictly_backwards",
    "Lcode.Beam2D.push_kept",
    "Lcode.Beam2D.push_lost_reason",
    "Lcode.Beam2D.halfPosition_in_layer",
    "Lcode.Beam2D.nodes_exist",
    "Lcode.Beam2D.nodes_exist_whole_cells",
    "Lcode.Beam2D.nodes_missing"
   ],
   "note": "nodes_missing (finding): coarse steps let the pusher read outside the field arrays."
  },
  {
   "property": "C10",
   "status": "proved",
   "theorems": [
    "Lcode.Mpi.steps_partition",
    "Lcode.Mpi.final_step_unique",
    "Lcode.Mpi.run_times"
   ],
   "note": ""
  },
  {
   "property": "C11",
   "status": "proved",
   "theorems": [
    "Lcode.Mpi.never_deadlocks",
    "Lcode.Mpi.terminates",
    "Lcode.Mpi.run_exists"
   ],
   "note": "Holds for every interleaving and for both synchronous and buffered delivery of each single message."
  },
  {
   "property": "C12",
   "status": "proved",
   "theorems": [
    "Lcode.Mpi.pipe_perm_seq",
    "Lcode.Mpi.parallel_equals_sequential",
    "Lcode.Mpi.single_process_sequential",
    "Lcode.Mpi.parallel_equals_sequential_2D",
    "Lcode.Mpi.noOvertaking_of_noRush",
    "Lcode.Mpi.world2D_is_stepDt",
    "Lcode.Mpi.parallel_equals_sequential_3D",
    "Lcode.Mpi.world3D_is_runDt",
    "Lcode.Mpi.parallel_differs_3D"
   ],
   "note": "Proved for every abstract solver that is order-insensitive inside a layer (Faithful) and finishes particles behind their layer (Causal); both are derived for the modelled 2D pusher, the second under NoRush. For the 3D pusher the second is a genuine hypothesis: parallel_differs_3D is a finding."
  },
  {
   "property": "C13",
   "status": "proved",
   "theorems": [
    "Lcode.Mpi.second_call_repeats_times",
    "Lcode.Mpi.second_call_starts_empty",
    "Lcode.Mpi.second_call_starts_empty_2D",
    "Lcode.Mpi.second_call_starts_empty_3D",
    "Lcode.Mpi.two_calls_run"
   ],
   "note": "Finding: repeated calls of step do not continue a run."
  },
  {
   "property": "C41",
   "status": "proved",
   "theorems": [
    "Lcode.Beam2D.push_leapfrog",
    "Lcode.Beam2D.particle_fields_exact",
    "Lcode.Beam2D.free_motion"
   ],
   "note": ""
  },
  {
   "property": "C14",
   "status": "proved",
   "theorems": [
    "Lcode.Plasma2D.neumann_solves",
    "Lcode.Plasma2D.dirichlet_solves",
    "Lcode.Plasma2D.solution_unique",
    "Lcode.Plasma2D.last_divisor",
    "Lcode.Plasma2D.sweep_bounds"
   ],
   "note": ""
  },
  {
   "property": "C15",
   "status": "proved",
   "theorems": [
    "Lcode.Plasma2D.cumtrapz_forward",
    "Lcode.Plasma2D.cumtrapz_backward",
    "Lcode.Plasma2D.cumtrapz_directions",
    "Lcode.Plasma2D.cumtrapz_affine",
    "Lcode.Plasma2D.cumtrapz_linear",
    "Lcode.Plasma2D.cumtrapz_monotone"
   ],
   "note": ""
  },
  {
   "property": "C16",
   "status": "proved",
   "theorems": [
    "Lcode.Plasma2D.fields_solve_equations",
    "Lcode.Plasma2D.fields_average",
    "Lcode.Plasma2D.quiet_fields",
    "Lcode.Plasma2D.factor_ge_one",
    "Lcode.Plasma2D.factor_eq_one"
   ],
   "note": ""
  },
  {
   "property": "C17",
   "status": "proved",
   "theorems": [
    "Lcode.Plasma2D.deposit_shape",
    "Lcode.Plasma2D.deposit_pointwise",
    "Lcode.Plasma2D.writes_in_grid",
    "Lcode.Plasma2D.write_outside",
    "Lcode.Plasma2D.shape_partition",
    "Lcode.Plasma2D.shape_nonneg",
    "Lcode.Plasma2D.deposit_conserves",
    "Lcode.Plasma2D.density_conserves",
    "Lcode.Plasma2D.vz_lt_one"
   ],
   "note": "write_outside is a finding: a particle at r >= (M+1/2)h is written past the end of the arrays."
  },
  {
   "property": "C18",
   "status": "proved",
   "theorems": [
    "Lcode.Plasma2D.uniform_density",
    "Lcode.Plasma2D.odd_ppc_not_uniform",
    "Lcode.Plasma2D.initial_quiet",
    "Lcode.Plasma2D.resting_row",
    "Lcode.Plasma2D.resting_quiet",
    "Lcode.Plasma2D.init_resting"
   ],
   "note": "odd_ppc_not_uniform refutes unit density next to the axis for odd particles per cell."
  },
  {
   "property": "C19",
   "status": "proved",
   "theorems": [
    "Lcode.Plasma2D.push_in_window",
    "Lcode.Plasma2D.push_spec",
    "Lcode.Plasma2D.interp_shape",
    "Lcode.Plasma2D.free_push",
    "Lcode.Plasma2D.push_at_rest"
   ],
   "note": ""
  },
  {
   "property": "C20",
   "status": "proved",
   "theorems": [
    "Lcode.Plasma2D.loop_ends",
    "Lcode.Plasma2D.substeps_cover",
    "Lcode.Plasma2D.single_push"
   ],
   "note": ""
  },
  {
   "property": "C22",
   "status": "proved",
   "theorems": [
    "Lcode.Plasma2D.electrons_placed",
    "Lcode.Plasma2D.uniform_electrons",
    "Lcode.Plasma2D.ions_neutralise"
   ],
   "note": ""
  },
  {
   "property": "C21",
   "status": "proved",
   "theorems": [
    "Lcode.Plasma2D.layer_decimates",
    "Lcode.Plasma2D.layer_covered",
    "Lcode.Plasma2D.stepDxi_covered",
    "Lcode.Plasma2D.layers_total",
    "Lcode.Plasma2D.alias_harmless",
    "Lcode.Plasma2D.advance_centred",
    "Lcode.Plasma2D.currents_consistent"
   ],
   "note": "trapped-path-limit = 0 (the default); any other value makes step_dxi raise, because it reads the attribute q of a dict."
  },
  {
   "property": "C42",
   "status": "proved",
   "theorems": [
    "Lcode.Plasma2D.neutral_stays",
    "Lcode.Plasma2D.quiet_start",
    "Lcode.Plasma2D.neutral_noise",
    "Lcode.Plasma2D.declustering_kicks_quiet_plasma"
   ],
   "note": "neutral_noise and declustering_kicks_quiet_plasma are the finding for declustering-enabled = True."
  },
  {
   "property": "C23",
   "status": "proved",
   "theorems": [
    "Lcode.Plasma3D.local_range",
    "Lcode.Plasma3D.weight4_moments",
    "Lcode.Plasma3D.weight4_bspline",
    "Lcode.Plasma3D.weight4_nonneg",
    "Lcode.Plasma3D.interpolate_shape",
    "Lcode.Plasma3D.interpolate_affine"
   ],
   "note": ""
  },
  {
   "property": "C24",
   "status": "proved",
   "theorems": [
    "Lcode.Plasma3D.depositAmount_shape",
    "Lcode.Plasma3D.stencil_inside",
    "Lcode.Plasma3D.depositSort_shape",
    "Lcode.Plasma3D.touched_inside",
    "Lcode.Plasma3D.depositSort_support",
    "Lcode.Plasma3D.depositSort_conserves",
    "Lcode.Plasma3D.depositSort_sign",
    "Lcode.Plasma3D.depositSort_perm",
    "Lcode.Plasma3D.deposit_interpolate_adjoint"
   ],
   "note": ""
  },
  {
   "property": "C25",
   "status": "proved",
   "theorems": [
    "Lcode.Plasma3D.moveOne_boundary",
    "Lcode.Plasma3D.switched_off_stays",
    "Lcode.Plasma3D.correctBoundary_mirror",
    "Lcode.Plasma3D.mirror_inside",
    "Lcode.Plasma3D.push_reads_inside",
    "Lcode.Plasma3D.push_reads_outside",
    "Lcode.Plasma3D.finish3_spec",
    "Lcode.Plasma3D.moveOne_spec",
    "Lcode.Plasma3D.moveOne_rest",
    "Lcode.Plasma3D.moveOne_free"
   ],
   "note": "push_reads_outside is a finding: the field is read outside the arrays for particles flung further than the mirrored range."
  },
  {
   "property": "C26",
   "status": "proved",
   "theorems": [
    "Lcode.Plasma3D.makePlasmaGrid_lattice",
    "Lcode.Plasma3D.makePlasmaGrid_antisymm",
    "Lcode.Plasma3D.makePlasmaGrid_spacing",
    "Lcode.Plasma3D.makePlasmaGrid_inside",
    "Lcode.Plasma3D.makePlasmaGrid_off_edges",
    "Lcode.Plasma3D.makePlasmaGrid_per_cell",
    "Lcode.Plasma3D.fraction_branch_dead"
   ],
   "note": ""
  },
  {
   "property": "C27",
   "status": "proved",
   "theorems": [
    "Lcode.Plasma3D.initial_density",
    "Lcode.Plasma3D.background_neutral",
    "Lcode.Plasma3D.mobile_neutral",
    "Lcode.Plasma3D.rest_no_current",
    "Lcode.Plasma3D.makePlasmaSingle_mem",
    "Lcode.Plasma3D.initial_inside",
    "Lcode.Plasma3D.influences_spec"
   ],
   "note": "dual-plasma-approach itself raises NameError at start (undefined pu_type), so influences_spec is about the helper alone."
  },
  {
   "property": "C28",
   "status": "proved",
   "theorems": [
    "Lcode.Plasma3D.dirichletSolve_spec",
    "Lcode.Plasma3D.dirichlet_unique",
    "Lcode.Plasma3D.mixSolve_spec",
    "Lcode.Plasma3D.mixed_unique",
    "Lcode.Plasma3D.neumannSolve_spec",
    "Lcode.Plasma3D.bzRhs_sum",
    "Lcode.Plasma3D.calcBz_spec",
    "Lcode.Plasma3D.calcEz_spec",
    "Lcode.Plasma3D.transverse_spec",
    "Lcode.Plasma3D.computeFields_spec",
    "Lcode.Plasma3D.zero_fields"
   ],
   "note": "Exact real arithmetic; the DST-I/DCT-I of scipy are modelled by their defining sums."
  },
  {
   "property": "C29",
   "status": "proved",
   "theorems": [
    "Lcode.Plasma3D.filter_formula",
    "Lcode.Plasma3D.filter_conserves",
    "Lcode.Plasma3D.momentum_conserved",
    "Lcode.Plasma3D.affine_untouched",
    "Lcode.Plasma3D.kick_bounded",
    "Lcode.Plasma3D.force_bound",
    "Lcode.Plasma3D.trapped_free",
    "Lcode.Plasma3D.smooth_total",
    "Lcode.Plasma3D.chaotic_mean",
    "Lcode.Plasma3D.damping_option_ignored"
   ],
   "note": "The FFT and scipy.ndimage.fourier_gaussian are modelled by their defining sums. damping_option_ignored is a finding."
  },
  {
   "property": "C43",
   "status": "proved",
   "theorems": [
    "Lcode.Plasma3D.quiet_step",
    "Lcode.Plasma3D.quiet_forever",
    "Lcode.Plasma3D.initial_quiet3",
    "Lcode.Plasma3D.history_contained",
    "Lcode.Plasma3D.history_touched",
    "Lcode.Plasma3D.step_scheme",
    "Lcode.Plasma3D.step_declustered",
    "Lcode.Plasma3D.run_layer"
   ],
   "note": ""
  },
  {
   "property": "C44",
   "status": "proved",
   "theorems": [
    "Lcode.Plasma3D.step_swap",
    "Lcode.Plasma3D.run_swap"
   ],
   "note": ""
  },
  {
   "property": "C30",
   "status": "proved",
   "theorems": [
    "Lcode.Plasma3D.zCoef_segment",
    "Lcode.Plasma3D.zCoef_outside",
    "Lcode.Plasma3D.zCoef_range",
    "Lcode.Plasma3D.zCoef_joint",
    "Lcode.Plasma3D.rampStart_spec",
    "Lcode.Plasma3D.radial_simple",
    "Lcode.Plasma3D.radial_sharp",
    "Lcode.Plasma3D.radial_ramp",
    "Lcode.Plasma3D.ramp_edge_spike",
    "Lcode.Plasma3D.channel_ramp",
    "Lcode.Plasma3D.channel_ramp_uniform",
    "Lcode.Plasma3D.rTable_segment",
    "Lcode.Plasma3D.profile_spec",
    "Lcode.Plasma3D.profile_user",
    "Lcode.Plasma3D.profile_nonneg",
    "Lcode.Plasma3D.profile_ratio",
    "Lcode.Plasma3D.profiled_single",
    "Lcode.Plasma3D.profiled_rings"
   ],
   "note": "ramp_edge_spike, channel_ramp and channel_ramp_uniform are findings (the property is refuted there). Reading the text of the tables is not modelled. lcode/plasma/profiles.py is dead code and not modelled."
  },
  {
   "property": "C31",
   "status": "proved",
   "theorems": [
    "Lcode.Beam3D.layout_pointwise",
    "Lcode.Beam3D.share_mirrored",
    "Lcode.Beam3D.sweep_pointwise",
    "Lcode.Beam3D.shape3_total",
    "Lcode.Beam3D.layout_conserves",
    "Lcode.Beam3D.sweep_conserves",
    "Lcode.Beam3D.deposit_inside",
    "Lcode.Beam3D.share_is_reversed",
    "Lcode.Beam3D.share_reversed_example",
    "Lcode.Beam3D.step_plasma_given"
   ],
   "note": "share_is_reversed is a finding: the shares of the two layers are exchanged."
  },
  {
   "property": "C32",
   "status": "proved",
   "theorems": [
    "Lcode.Beam3D.push_leapfrog",
    "Lcode.Beam3D.interp3_split",
    "Lcode.Beam3D.field_one_step_behind",
    "Lcode.Beam3D.field_uniform_xi",
    "Lcode.Beam3D.field_weights",
    "Lcode.Beam3D.field_extrapolated"
   ],
   "note": "field_one_step_behind and field_extrapolated are findings: the weights of the two layers are exchanged. CPU kernel only."
  },
  {
   "property": "C33",
   "status": "proved",
   "theorems": [
    "Lcode.Beam3D.push_outcomes",
    "Lcode.Beam3D.push_at_least_one",
    "Lcode.Beam3D.push_waiting",
    "Lcode.Beam3D.push_causal",
    "Lcode.Beam3D.push_reads_inside",
    "Lcode.Beam3D.lostRadius_fits",
    "Lcode.Beam3D.push_reads_outside",
    "Lcode.Beam3D.push_lost_and_fell",
    "Lcode.Beam3D.push_finished_but_fell",
    "Lcode.Beam3D.step_accounts",
    "Lcode.Beam3D.step_new_beam",
    "Lcode.Beam3D.run_no_duplication",
    "Lcode.Beam3D.step_drops_particle",
    "Lcode.Beam3D.step_keeps_lost_particle"
   ],
   "note": "push_lost_and_fell, push_finished_but_fell, step_drops_particle, step_keeps_lost_particle, push_reads_outside are findings. CPU kernel only."
  },
  {
   "property": "C34",
   "status": "proved",
   "theorems": [
    "Lcode.Beam3D.operations_keep_rows",
    "Lcode.Beam3D.source_sorted",
    "Lcode.Beam3D.source_by_count",
    "Lcode.Beam3D.source_layers",
    "Lcode.Beam3D.source_delivers_once",
    "Lcode.Beam3D.source_displacement",
    "Lcode.Beam3D.source_displaced_by_head",
    "Lcode.Beam3D.initGenerated_rows"
   ],
   "note": "source_displaced_by_head is a finding."
  },
  {
   "property": "C40",
   "status": "proved",
   "theorems": [
    "Lcode.Beam3D.rigid_deposits",
    "Lcode.Beam3D.rigid_transposed",
    "Lcode.Beam3D.rigid_correct_iff",
    "Lcode.Beam3D.rigid_swaps_axes"
   ],
   "note": "rigid_swaps_axes is a finding: numpy.meshgrid is called without indexing='ij'."
  },
  {
   "property": "C35",
   "status": "proved",
   "theorems": [
    "Lcode.Gen.generated_beam",
    "Lcode.Gen.generated_2d",
    "Lcode.Gen.generated_3d",
    "Lcode.Gen.generated_2d_delivered",
    "Lcode.Gen.generated_3d_delivered",
    "Lcode.Gen.segment_located",
    "Lcode.Gen.segment_missing",
    "Lcode.Gen.xiShape_range",
    "Lcode.Gen.layersNumber_spec",
    "Lcode.Gen.layerCurrent_spec",
    "Lcode.Gen.layerCount_bounds",
    "Lcode.Gen.layer_charge",
    "Lcode.Gen.layer_charge_matches",
    "Lcode.Gen.layer_charge_opposite",
    "Lcode.Gen.opposite_segment",
    "Lcode.Gen.radiusOf_spec",
    "Lcode.Gen.trans2_ok",
    "Lcode.Gen.trans3_ok",
    "Lcode.Gen.trans2_draws",
    "Lcode.Gen.trans3_draws",
    "Lcode.Gen.energy_ok",
    "Lcode.Gen.multi_energy_whole_layer",
    "Lcode.Gen.generator_raises_iff",
    "Lcode.Gen.joint_raises",
    "Lcode.Gen.twoSegments_generated",
    "Lcode.Gen.segments_with_default",
    "Lcode.Gen.segments_without_default",
    "Lcode.Gen.unknown_scalar_raises",
    "Lcode.Gen.segment_fields",
    "Lcode.Gen.default_beam",
    "Lcode.Gen.shape_of_user",
    "Lcode.Gen.born_inside_2d",
    "Lcode.Gen.born_inside_3d",
    "Lcode.Gen.whole_generated",
    "Lcode.Gen.whole_layers",
    "Lcode.Gen.whole_flat_count",
    "Lcode.Gen.ssm_beam",
    "Lcode.Gen.highR_beam"
   ],
   "note": "Real arithmetic; the random generator is any state machine whose deviates are in their documented ranges. layer_charge_opposite, opposite_segment, joint_raises, multi_energy_whole_layer are findings."
  },
  {
   "property": "C36",
   "status": "proved",
   "theorems": [
    "Lcode.Diag.cond_iff",
    "Lcode.Diag.every_period_written",
    "Lcode.Diag.written_near_period",
    "Lcode.Diag.writers_of_multiple",
    "Lcode.Diag.short_period_every_step",
    "Lcode.Diag.outputs_spaced",
    "Lcode.Diag.outSteps_rank0",
    "Lcode.Diag.outSteps_other",
    "Lcode.Diag.beam_files_of_run",
    "Lcode.Diag.plasma_files_of_run"
   ],
   "note": "Exact arithmetic: rounding of the floats in absremainder is not modelled."
  },
  {
   "property": "C37",
   "status": "proved",
   "theorems": [
    "Lcode.Diag.files_of_run",
    "Lcode.Diag.run_total",
    "Lcode.Diag.select_iff",
    "Lcode.Diag.table3_consts",
    "Lcode.Diag.fxi3_files",
    "Lcode.Diag.fxi2_files",
    "Lcode.Diag.fxi2_unsupported",
    "Lcode.Diag.slice_x_files",
    "Lcode.Diag.slice_y_files",
    "Lcode.Diag.slice_xy_files",
    "Lcode.Diag.slice_r_files",
    "Lcode.Diag.slice_r_unsupported",
    "Lcode.Diag.probe_nearest",
    "Lcode.Diag.probe_inside",
    "Lcode.Diag.plane_probe_values",
    "Lcode.Diag.line_probe_values",
    "Lcode.Diag.axis_probe_value",
    "Lcode.Diag.radial_probe_values",
    "Lcode.Diag.radial_plane_values",
    "Lcode.Diag.probe_wraps",
    "Lcode.Diag.probe_beyond",
    "Lcode.Diag.energyFlux_nonneg",
    "Lcode.Diag.energyFlux_zero_iff",
    "Lcode.Diag.amaxAbs_spec",
    "Lcode.Diag.beam_files_of_run",
    "Lcode.Diag.plasma_files_of_run",
    "Lcode.Diag.snapshots_of_run",
    "Lcode.Diag.ion_snapshots_of_run",
    "Lcode.Diag.snapshot_layers",
    "Lcode.Diag.no_snapshots",
    "Lcode.Diag.rigid_rejected",
    "Lcode.Diag.names_distinct",
    "Lcode.Diag.name_collision",
    "Lcode.Diag.xy_first_step_empty"
   ],
   "note": "Pictures are not modelled. name_collision, probe_wraps, xy_first_step_empty are findings."
  },
  {
   "property": "C38",
   "status": "proved",
   "theorems": [
    "Lcode.Diag.slicerX_coords",
    "Lcode.Diag.slicerY_coords",
    "Lcode.Diag.slicerXY_coords",
    "Lcode.Diag.slicerR_coords",
    "Lcode.Diag.limits_sound",
    "Lcode.Diag.limits_complete",
    "Lcode.Diag.radial_limits_sound",
    "Lcode.Diag.radial_limits_complete",
    "Lcode.Diag.offset_line",
    "Lcode.Diag.keep_iff",
    "Lcode.Diag.default_layers",
    "Lcode.Diag.default_columns",
    "Lcode.Diag.default_slice_complete_iff",
    "Lcode.Diag.default_xy_misses_edge",
    "Lcode.Diag.default_radial_misses_wall",
    "Lcode.Diag.xi_x_offset_raises",
    "Lcode.Diag.xi_y_offset_clamped",
    "Lcode.Diag.xy_unequal_raises"
   ],
   "note": "default_slice_complete_iff, default_xy_misses_edge, default_radial_misses_wall, xi_x_offset_raises, xy_unequal_raises are findings (the original claim, that default limits cover the whole window, is refuted)."
  },
  {
   "property": "C39",
   "status": "proved",
   "theorems": [
    "Lcode.Diag.load3_of_saved",
    "Lcode.Diag.load2_table",
    "Lcode.Diag.load2_of_saved_raises",
    "Lcode.Diag.load2_renamed",
    "Lcode.Diag.plasma_file_not_loadable"
   ],
   "note": "load2_of_saved_raises and plasma_file_not_loadable are findings. The npz format itself is modelled as a list of named arrays."
  },
  {
   "property": "C45",
   "status": "proved",
   "theorems": [
    "Lcode.Mpi.causality_2D",
    "Lcode.Mpi.causality_first_step_2D",
    "Lcode.Mpi.window_decides_2D",
    "Lcode.Mpi.order_irrelevant_2D",
    "Lcode.Mpi.one_layer_per_step_2D",
    "Lcode.Mpi.causality_3D",
    "Lcode.Mpi.causality_first_step_3D",
    "Lcode.Mpi.window_decides_3D",
    "Lcode.Mpi.domain_of_dependence",
    "Lcode.Mpi.noOvertaking_of_noRush"
   ],
   "note": "The refutation of strict causality is one_layer_per_step_2D."
  },
  {
   "property": "C46",
   "status": "proved",
   "theorems": [
    "Lcode.Mpi.continued_run_2D",
    "Lcode.Mpi.continued_run_3D",
    "Lcode.Mpi.continued_run",
    "Lcode.Mpi.startLayer_stored",
    "Lcode.Mpi.startLayer_missing",
    "Lcode.Mpi.continuation_loses_beam_2D",
    "Lcode.Mpi.continuation_displaced_3D",
    "Lcode.Mpi.continuation_differs_3D"
   ],
   "note": "The refutations are continuation_loses_beam_2D, continuation_displaced_3D and continuation_differs_3D. Reading the state from a file is not modelled; the stored state is the plasma of the uninterrupted run."
  },
  {
   "property": "C47",
   "status": "proved",
   "theorems": [
    "Lcode.Plasma3D.gpu_run_same",
    "Lcode.Plasma3D.gpu_run_exists",
    "Lcode.Plasma3D.gpu_step_same",
    "Lcode.Plasma3D.gpu_step_exists",
    "Lcode.Plasma3D.gpu_deposit_same",
    "Lcode.Plasma3D.gpu_deposit_exists",
    "Lcode.Plasma3D.gpu_move_same",
    "Lcode.Plasma3D.gpu_free_same",
    "Lcode.Plasma3D.gpu_fields_same",
    "Lcode.Plasma3D.dstG_eq",
    "Lcode.Plasma3D.dctG_eq",
    "Lcode.Plasma3D.mixG_eq",
    "Lcode.Plasma3D.gpu_filter_same",
    "Lcode.Plasma3D.gpu_inhom_same",
    "Lcode.Plasma3D.gpu_inhom_two",
    "Lcode.Plasma3D.weight4G_eq",
    "Lcode.Plasma3D.flat_node",
    "Lcode.Plasma3D.flat_wraps",
    "Lcode.Plasma3D.calm_of_slow",
    "Lcode.Plasma3D.gpu_first_layer",
    "Lcode.Beam3D.gpu_layout_same",
    "Lcode.Beam3D.gpu_layouts_same",
    "Lcode.Beam3D.gpu_layouts_exist",
    "Lcode.Beam3D.gpu_substeps_same",
    "Lcode.Beam3D.gpu_deposit_wraps"
   ],
   "note": "Findings: dctG_eq (sign), gpu_inhom_two, flat_wraps, gpu_deposit_wraps. gpu_first_layer shows the hypotheses met by the initial plasma of every profile. The GPU beam pusher is a different algorithm: C48. Trusted: cupy numbers the elements of a raw argument in row-major order, and rfft2 is by definition."
  },
  {
   "property": "C48",
   "status": "proved",
   "theorems": [
    "Lcode.Beam3D.gpu_push_step",
    "Lcode.Beam3D.gpu_kick_midpoint",
    "Lcode.Beam3D.gpu_wrong_mass",
    "Lcode.Beam3D.gpu_kick_work",
    "Lcode.Beam3D.gpu_magnetic_energy",
    "Lcode.Beam3D.gpu_electric",
    "Lcode.Beam3D.gpu_kick_reversible",
    "Lcode.Beam3D.gpu_substep_reversible",
    "Lcode.Beam3D.gpu_force_free",
    "Lcode.Beam3D.gpu_force_free_case",
    "Lcode.Beam3D.cpu_magnetic_energy",
    "Lcode.Beam3D.cpu_not_reversible",
    "Lcode.Beam3D.cpu_force_free",
    "Lcode.Beam3D.interp3G_same",
    "Lcode.Beam3D.fieldG_same",
    "Lcode.Beam3D.gpu_push_outcomes",
    "Lcode.Beam3D.gpu_push_at_least_one",
    "Lcode.Beam3D.gpu_push_layer",
    "Lcode.Beam3D.gpu_push_causal",
    "Lcode.Beam3D.gpu_push_waiting",
    "Lcode.Beam3D.gpu_step_books",
    "Lcode.Beam3D.gpu_run_no_duplication",
    "Lcode.Beam3D.gpu_free",
    "Lcode.Beam3D.gpu_push_lost_and_fell",
    "Lcode.Beam3D.gpu_step_keeps_particle"
   ],
   "note": "Refutations: gpu_wrong_mass and the right-to-left failure in gpu_kick_midpoint (an equivalence), gpu_push_lost_and_fell; contrast with the CPU: cpu_magnetic_energy, cpu_not_reversible, and gpu_step_keeps_particle against step_drops_particle (C33)."
  },
  {
   "property": "C49",
   "status": "proved",
   "theorems": [
    "Lcode.Plasma3D.computeFields_mirror",
    "Lcode.Plasma3D.depositSort_mirror",
    "Lcode.Plasma3D.interpolate_mirror",
    "Lcode.Plasma3D.moveOne_mirror",
    "Lcode.Plasma3D.correctBoundary_flip",
    "Lcode.Plasma3D.step_mirror",
    "Lcode.Plasma3D.run_mirror",
    "Lcode.Plasma3D.run_mirrorY",
    "Lcode.Plasma3D.step_order",
    "Lcode.Plasma3D.run_order",
    "Lcode.Plasma3D.symmetric_run",
    "Lcode.Plasma3D.initial_symmetric",
    "Lcode.Plasma3D.stream_step",
    "Lcode.Plasma3D.stream_noLeap",
    "Lcode.Plasma3D.quiet_noLeap",
    "Lcode.Plasma3D.leaper_fly",
    "Lcode.Plasma3D.leap_breaks_mirror"
   ],
   "note": "Refutation: leap_breaks_mirror. stream_noLeap and quiet_noLeap show that moving and resting plasmas meet the hypotheses for any number of layers."
  },
  {
   "property": "C50",
   "status": "proved",
   "theorems": [
    "Lcode.Sim.solver_configuration",
    "Lcode.Sim.same_dictionary_same_configuration",
    "Lcode.Sim.adjust_twice",
    "Lcode.Sim.create_iff",
    "Lcode.Sim.run_geometry",
    "Lcode.Sim.geometry_locked",
    "Lcode.Sim.first_call_times",
    "Lcode.Sim.default_number",
    "Lcode.Sim.explicit_number",
    "Lcode.Sim.later_calls",
    "Lcode.Sim.first_beam",
    "Lcode.Sim.rigid_sticks",
    "Lcode.Sim.period_ratchet",
    "Lcode.Sim.period_never_lowered",
    "Lcode.Sim.layers_cover",
    "Lcode.Sim.nodes_cover",
    "Lcode.Sim.mixed_xi_step",
    "Lcode.Sim.circ_spelling",
    "Lcode.Sim.capitals_not_adjusted",
    "Lcode.Sim.rigid_case"
   ],
   "note": "Findings: later_calls with mixed_xi_step, rigid_sticks with rigid_case, period_ratchet, circ_spelling, capitals_not_adjusted. Floats are exact rationals: the rounding of the quotient time-limit/time-step is outside the model."
  },
  {
   "property": "C51",
   "status": "proved",
   "theorems": [
    "Lcode.Cfg.runas_text",
    "Lcode.Cfg.runas_fails_iff",
    "Lcode.Cfg.Shows.unique",
    "Lcode.Cfg.runas_other_keys",
    "Lcode.Cfg.recorded_keys",
    "Lcode.Cfg.rerun_same_grid",
    "Lcode.Cfg.demo_file",
    "Lcode.Cfg.rshape_not_recorded",
    "Lcode.Cfg.demo_rshape",
    "Lcode.Cfg.coefficient_not_recorded",
    "Lcode.Cfg.capital_halved"
   ],
   "note": "Findings: rshape_not_recorded, coefficient_not_recorded, capital_halved. rerun_same_grid is in exact arithmetic: rounding of n*h/h in floats is outside the model."
  },
  {
   "property": "C52",
   "status": "proved",
   "theorems": [
    "Lcode.Plasma2D.rhojRow_split",
    "Lcode.Plasma2D.movePart_part",
    "Lcode.Plasma2D.stepDxi_split",
    "Lcode.Plasma2D.layers_split",
    "Lcode.Plasma3D.depositSort_split",
    "Lcode.Plasma3D.moveOne_part",
    "Lcode.Plasma3D.step_split",
    "Lcode.Plasma3D.run_split",
    "Lcode.Beam2D.pushRow_unseen",
    "Lcode.Beam2D.layout_split",
    "Lcode.Beam3D.pushRow_unseen",
    "Lcode.Beam3D.layout_split",
    "Lcode.Mpi.split_run_2D",
    "Lcode.Mpi.split_run_3D",
    "Lcode.Mpi.split_simulation_2D",
    "Lcode.Mpi.split_simulation_3D",
    "Lcode.Mpi.thirds_2D",
    "Lcode.Mpi.thirds_3D"
   ],
   "note": "In 3d with declustering the property makes no sense: the noise filter reads the particles as an n x n array, so their number and order matter. Statements are in exact arithmetic; the sums of the code are in floating point."
  },
  {
   "property": "C53",
   "status": "proved",
   "theorems": [
    "Lcode.Mpi.test_particles_2D",
    "Lcode.Mpi.test_particles_3D",
    "Lcode.Mpi.test_particle_ahead_2D",
    "Lcode.Mpi.quiet_run_2D",
    "Lcode.Mpi.quiet_run_3D",
    "Lcode.Mpi.free_beam_2D",
    "Lcode.Mpi.free_beam_rotating_2D",
    "Lcode.Mpi.free_beam_3D",
    "Lcode.Mpi.offAxis_of_M",
    "Lcode.Mpi.OnLine2.energy",
    "Lcode.Plasma2D.init_neutral",
    "Lcode.Plasma3D.initial_quiet3"
   ],
   "note": "Part (a) holds for any plasma solver plugged into the layer loop. Part (b) in 2d is without declustering; the head-of-window exception is the finding of C04 and C45."
  },
  {
   "property": "C54",
   "status": "proved",
   "theorems": [
    "Lcode.Mpi.mirror_simulation_3D",
    "Lcode.Mpi.symmetric_simulation_3D",
    "Lcode.Mpi.quiet_simNoLeapY",
    "Lcode.Mpi.mirrorX_refuted",
    "Lcode.Mpi.run_sym",
    "Lcode.Beam3D.pushRow_mirrorY",
    "Lcode.Beam3D.layout_mirrorY",
    "Lcode.Plasma3D.step_mirrorY",
    "Lcode.Plasma3D.initial_symmetricY"
   ],
   "note": "The condition on leaps is the one of C49 (refuted there without it), asked of the first run only. The refutation for x is the finding of C33 (the pusher compares x with the end of the layer)."
  },
  {
   "property": "C55",
   "status": "proved",
   "theorems": [
    "Lcode.Mpi.charge_conjugation_3D",
    "Lcode.Mpi.charge_conjugation_paths_3D",
    "Lcode.Plasma3D.step_conj",
    "Lcode.Beam3D.pushRow_conj",
    "Lcode.Beam3D.layout_conj",
    "Lcode.Beam3D.initRow_conj",
    "Lcode.Plasma2D.conjugation_refuted_2D"
   ],
   "note": "No hypotheses. The contrast for the 2D code is a refutation at the level of compute_fields."
  },
  {
   "property": "C56",
   "status": "proved",
   "theorems": [
    "Lcode.Mpi.rotation_reversed_2D",
    "Lcode.Mpi.noRotation_iff",
    "Lcode.Mpi.no_rotation_2D",
    "Lcode.Mpi.no_rotation_beam_2D",
    "Lcode.Mpi.initial_noRotation",
    "Lcode.Plasma2D.stepDxi_rev",
    "Lcode.Beam2D.pushRow_rev"
   ],
   "note": "The reversed beams agree up to the order of storage (sorting is not assumed stable). Stated for the fused loop with any correct argsort."
  },
  {
   "property": "C57",
   "status": "proved",
   "theorems": [
    "Lcode.Legacy.profile_read",
    "Lcode.Legacy.example_read",
    "Lcode.Legacy.reading_surprises",
    "Lcode.Legacy.split_segments",
    "Lcode.Legacy.blocks_exist",
    "Lcode.Legacy.split_refused",
    "Lcode.Legacy.split_refused_value",
    "Lcode.Legacy.split_empty",
    "Lcode.Legacy.intervals_eq",
    "Lcode.Legacy.layersOf_append",
    "Lcode.Legacy.layerCount_profile",
    "Lcode.Legacy.layer_current",
    "Lcode.Legacy.radius_quantile",
    "Lcode.Legacy.amp_zero",
    "Lcode.Legacy.short_segment",
    "Lcode.Legacy.segmentBeam_spec",
    "Lcode.Legacy.legacy_beam",
    "Lcode.Legacy.segment_count",
    "Lcode.Legacy.chained_count",
    "Lcode.Legacy.blocks_chained",
    "Lcode.Legacy.profile_layers",
    "Lcode.Legacy.geometry_2d_refused",
    "Lcode.Legacy.ids_not_unique",
    "Lcode.Legacy.default_segment_ok"
   ],
   "note": "Real arithmetic; numpy.random is any generator with uniform deviates in [0,1) and permutations; float() of a text and the normal quantile are arbitrary functions."
  },
  {
   "property": "C58",
   "status": "proved",
   "theorems": [
    "Lcode.Fp.fl_err",
    "Lcode.Fp.fl_nearest",
    "Lcode.Fp.fl_mono",
    "Lcode.Fp.fl_exact",
    "Lcode.Fp.isFloat_fl",
    "Lcode.Fp.quot_err",
    "Lcode.Fp.layers3_exact",
    "Lcode.Fp.layers3_near",
    "Lcode.Fp.intCount_or",
    "Lcode.Fp.intCount_iff",
    "Lcode.Fp.intCount_floats",
    "Lcode.Fp.intCount_good_step",
    "Lcode.Fp.intCount_floor",
    "Lcode.Fp.whole_window",
    "Lcode.Fp.lost_layer",
    "Lcode.Fp.border_forms",
    "Lcode.Fp.border_lt",
    "Lcode.Fp.border_err",
    "Lcode.Fp.between_unique",
    "Lcode.Fp.source2_floats",
    "Lcode.Fp.source3_floats",
    "Lcode.Fp.border_example",
    "Lcode.Fp.again_or",
    "Lcode.Fp.rerun_cells",
    "Lcode.Fp.rerun_cells_exact",
    "Lcode.Fp.rerun_other_grid",
    "Lcode.Fp.time_err",
    "Lcode.Fp.cond_near",
    "Lcode.Fp.written_floats",
    "Lcode.Fp.written_every_mth",
    "Lcode.Fp.layer_every_mth",
    "Lcode.Fp.node_exact",
    "Lcode.Fp.floorCount_or",
    "Lcode.Fp.floorCount_floats",
    "Lcode.Fp.kept_layers",
    "Lcode.Fp.slice_example"
   ],
   "note": "Binary64 with an unbounded exponent: no overflow, no subnormal numbers. Python's float of a decimal text is correctly rounded; float // float is the floor of the exact quotient; math.remainder is exact. Of the other claims only counts, borders, sources, times and output conditions are restated with rounding; fields and particle motion are not."
  },
  {
   "property": "C59",
   "status": "proved",
   "theorems": [
    "Lcode.Mpi.Datatype.datatype_describes",
    "Lcode.Mpi.Datatype.accepted_iff",
    "Lcode.Mpi.Datatype.transfer",
    "Lcode.Mpi.Datatype.count_exact",
    "Lcode.Mpi.Datatype.items_exact",
    "Lcode.Mpi.Datatype.beam2_type",
    "Lcode.Mpi.Datatype.beam3_type",
    "Lcode.Mpi.Datatype.beam_message",
    "Lcode.Mpi.Datatype.end_message",
    "Lcode.Mpi.Datatype.id_kept",
    "Lcode.Mpi.Datatype.id_collision"
   ],
   "note": "MPI's type maps, sizes, extents and Get_count are modelled by the definitions of the MPI standard, mpi4py's item count by the extent rule."
  },
  {
   "property": "C60",
   "status": "proved",
   "theorems": [
    "Lcode.Mpi.shift_run_2D",
    "Lcode.Mpi.shift_simulation_2D",
    "Lcode.Mpi.shift_run_3D",
    "Lcode.Mpi.shift_simulation_3D",
    "Lcode.Mpi.nothing_held_3D",
    "Lcode.Mpi.shift_narrow_3D",
    "Lcode.Beam3D.shift_fails_3D",
    "Lcode.Beam3D.pushRow_shift"
   ],
   "note": "Exact real arithmetic. 2D: the window is a whole number of radial cells. The 3D claim is proved under the stated conditions and refuted without them (shift_fails_3D)."
  },
  {
   "property": "C61",
   "status": "proved",
   "theorems": [
    "Lcode.Fp.touched_iff",
    "Lcode.Fp.read_safe",
    "Lcode.Fp.plasma_safe_iff",
    "Lcode.Fp.whole_window_safe_iff",
    "Lcode.Fp.initial_plasma_outside",
    "Lcode.Fp.window_51",
    "Lcode.Fp.radius_le_lost",
    "Lcode.Fp.beam_safe_iff",
    "Lcode.Fp.beam_safe",
    "Lcode.Fp.kept_beam_safe",
    "Lcode.Fp.small_window",
    "Lcode.Fp.touched3_iff",
    "Lcode.Fp.fits3",
    "Lcode.Fp.plasma3_safe",
    "Lcode.Fp.padding_two",
    "Lcode.Fp.mirrorF_inside",
    "Lcode.Fp.move3_reads_safe",
    "Lcode.Fp.gpu3_safe",
    "Lcode.Fp.beam3_within",
    "Lcode.Fp.kept_beam3_safe",
    "Lcode.Fp.small_window3"
   ],
   "note": "Binary64 with unbounded exponent. Square roots are faithfully rounded. Positions are those the pushers produce; a beam file may of course contain any position (beam_safe_iff, touched3_iff)."
  },
  {
   "property": "C62",
   "status": "proved",
   "theorems": [
    "Lcode.Mem.stepDxiH_shows",
    "Lcode.Mem.stepDxiH3_shows",
    "Lcode.Mem.stepDtH_rel",
    "Lcode.Mem.dump_eq",
    "Lcode.Mem.runH_eq",
    "Lcode.Mem.stepV_2D",
    "Lcode.Mem.stepV_3D",
    "Lcode.Mem.initH2_shows",
    "Lcode.Mem.initH3_shows",
    "Lcode.Mem.shared_2D",
    "Lcode.Mem.loaded_2D",
    "Lcode.Mem.shared_3D",
    "Lcode.Mem.loaded_3D",
    "Lcode.Mem.rows_2D",
    "Lcode.Mem.rows_3D",
    "Lcode.Mem.drained_2D",
    "Lcode.Mem.drained_3D",
    "Lcode.Mem.loaded_stub_fails",
    "Lcode.Mem.loaded_twice"
   ],
   "note": "The arrays of one particle sort are one unit of the store (the code copies and writes them together), so are the arrays of a group of currents and the eleven arrays of a 3D beam; sharing inside such a unit is excluded by reading: the init functions make every array with its own call. With an ion background the 3D code copies const_arrays.ro_initial, as modelled."
  },
  {
   "property": "C63",
   "status": "proved",
   "theorems": [
    "Lcode.Start.run2_ok_iff",
    "Lcode.Start.constructor2_errors",
    "Lcode.Start.run2_errors",
    "Lcode.Start.run2_fails_early",
    "Lcode.Start.run3_ok_iff",
    "Lcode.Start.run3_adjusted",
    "Lcode.Start.constructor3_errors",
    "Lcode.Start.run3_errors",
    "Lcode.Start.run3_fails_early",
    "Lcode.Start.wrong_geometry",
    "Lcode.Start.zero_step",
    "Lcode.Start.dual_never_runs",
    "Lcode.Start.failing_options",
    "Lcode.Start.capital_geometry",
    "Lcode.Start.run3_case",
    "Lcode.Start.run3_cases",
    "Lcode.Start.examples_run",
    "Lcode.Start.examples_steps",
    "Lcode.Start.examples_finish",
    "Lcode.Start.step_default",
    "Lcode.Start.zero_time_step"
   ],
   "note": "Model of the operations that can raise because of the configuration; one process, no diagnostics, exact numbers (no infinities). Errors of external parts (cupy, FFT size, profile, beam creation, rigid density) are arbitrary parameters. That no other operation of these functions raises rests on reading the code; numba code does not check indices (C61)."
  },
  {
   "property": "C64",
   "status": "proved",
   "theorems": [
    "Lcode.Mpi.window_length_2D",
    "Lcode.Mpi.window_length_first_2D",
    "Lcode.Mpi.window_length_3D",
    "Lcode.Mpi.window_length_narrow_3D",
    "Lcode.Mpi.window_length_first_3D",
    "Lcode.Beam3D.window_length_fails_3D",
    "Lcode.Beam3D.last_layer_lost",
    "Lcode.Gen.longer_beam",
    "Lcode.Gen.longer_beam_layer",
    "Lcode.Gen.longer_driver_2D",
    "Lcode.Gen.longer_driver_3D",
    "Lcode.Gen.longer_driver_case"
   ],
   "note": "Single-process runs (C12, C39, C48 carry them to parallel runs); exact arithmetic; the random generator is a state machine, so the same seed means the same stream."
  },
  {
   "property": "C65",
   "status": "proved",
   "theorems": [
    "Lcode.Plasma2D.fields_converge",
    "Lcode.Plasma2D.fields_converge_first",
    "Lcode.Plasma2D.fields_error",
    "Lcode.Plasma2D.converge_Er",
    "Lcode.Plasma2D.converge_Ef",
    "Lcode.Plasma2D.converge_Ez",
    "Lcode.Plasma2D.converge_Bf",
    "Lcode.Plasma2D.converge_Bz",
    "Lcode.Plasma2D.Bz_first_order",
    "Lcode.Plasma2D.Er_first_order"
   ],
   "note": "Exact arithmetic; one call of the solver with given sources (the predictor-corrector iterations around it are C21, C51). That an exact solution exists is a hypothesis; the case shows one."
  },
  {
   "property": "C66",
   "status": "proved",
   "theorems": [
    "Lcode.Plasma3D.fields_converge",
    "Lcode.Plasma3D.mixed_converge",
    "Lcode.Plasma3D.dirichlet_converge",
    "Lcode.Plasma3D.bz_converge",
    "Lcode.Plasma3D.mixed_stable",
    "Lcode.Plasma3D.dirichlet_stable",
    "Lcode.Plasma3D.neumann_stable",
    "Lcode.Plasma3D.node_mean",
    "Lcode.Plasma3D.ConvergeCases.case_converges"
   ],
   "note": "Exact arithmetic; one call of the solver with given sources. That an exact solution exists is a hypothesis; the case shows one. The bound for B_z is of first order because Bz.mean() counts nodes on the perimeter as much as inner ones and because the stability estimate for the Neumann problem loses one order; it is not claimed to be sharp."
  },
  {
   "property": "C67",
   "status": "proved",
   "theorems": [
    "Lcode.Diag.Old.namesOf_lists",
    "Lcode.Diag.Old.parse_iff",
    "Lcode.Diag.Old.file_of_step",
    "Lcode.Diag.Old.file_names",
    "Lcode.Diag.Old.interrupted",
    "Lcode.Diag.Old.old_fxi_files",
    "Lcode.Diag.Old.old_fxi_total",
    "Lcode.Diag.Old.ni_rejected",
    "Lcode.Diag.Old.joined_accepted",
    "Lcode.Diag.Old.old_maps_files",
    "Lcode.Diag.Old.old_maps_step",
    "Lcode.Diag.Old.old_maps_merging",
    "Lcode.Diag.Old.old_maps_particles",
    "Lcode.Diag.Old.map_nodes",
    "Lcode.Diag.Old.map_grid_whole",
    "Lcode.Diag.Old.map_below",
    "Lcode.Diag.Old.picture_of_layer",
    "Lcode.Diag.Old.pictures_only",
    "Lcode.Diag.Old.numbers_raise",
    "Lcode.Diag.Old.save_raises",
    "Lcode.Diag.Old.save_nothing",
    "Lcode.Diag.Old.Cases.fxi_file",
    "Lcode.Diag.Old.Cases.fxi_run",
    "Lcode.Diag.Old.Cases.maps_run_ok",
    "Lcode.Diag.Old.Cases.maps_condition",
    "Lcode.Diag.Old.Cases.overwritten_spec"
   ],
   "note": "Exact arithmetic; finite periods; pictures are represented by the array that is drawn. As in C37 a file holds the recorded arrays, not the bytes of the npz format."
  },
  {
   "property": "C68",
   "status": "proved",
   "theorems": [
    "Lcode.Beam3D.vel_lip",
    "Lcode.Beam3D.cpu_converges",
    "Lcode.Beam3D.sampled_error",
    "Lcode.Beam3D.cpu_converges_sampled",
    "Lcode.Beam3D.cpu_first_order",
    "Lcode.Beam3D.cpu_run_pushed",
    "Lcode.Beam3D.cpu_only_first_order",
    "Lcode.Beam3D.factor_error",
    "Lcode.Beam3D.gpu_converges",
    "Lcode.Beam3D.gpu_converges_sampled",
    "Lcode.Beam3D.circ_smooth",
    "Lcode.Beam3D.gpu_second_order_case"
   ],
   "note": "Exact arithmetic. The solution of the equations of motion is a hypothesis (its existence is not proved in general; a circle in a uniform field is given). Errors are componentwise. The statement is about a particle as long as it is not lost."
  },
  {
   "property": "C69",
   "status": "proved",
   "theorems": [
    "Lcode.Beam2D.turn_local",
    "Lcode.Beam2D.half_near",
    "Lcode.Beam2D.kept_momentum",
    "Lcode.Beam2D.converges_2d",
    "Lcode.Beam2D.cylinder_error",
    "Lcode.Beam2D.felt_error",
    "Lcode.Beam2D.first_order_2d",
    "Lcode.Beam2D.run_pushed",
    "Lcode.Beam2D.circle_case",
    "Lcode.Beam2D.magnetic_heating",
    "Lcode.Beam2D.only_first_order_2d",
    "Lcode.Beam2D.line_case"
   ],
   "note": "Exact arithmetic. The solution of the equations of motion is a hypothesis (a circle and a straight line are given). Without an external magnetic field the arrays of E_phi and B_z are assumed zero, as the plasma solver computes them. The statement is about a particle as long as it is not lost."
  },
  {
   "property": "C70",
   "status": "proved",
   "theorems": [
    "Lcode.Fp.sumF_err",
    "Lcode.Fp.sumF_perm",
    "Lcode.Fp.order_matters",
    "Lcode.Fp.addAtF_perm",
    "Lcode.Fp.deposit_doubles",
    "Lcode.Fp.charge_doubles",
    "Lcode.Fp.layer_doubles",
    "Lcode.Fp.sweep_doubles",
    "Lcode.Fp.beam_charge_doubles",
    "Lcode.Fp.exact_is_model",
    "Lcode.Fp.layout_close",
    "Lcode.Fp.density_sign",
    "Lcode.Fp.tiny_negative",
    "Lcode.Fp.order_close",
    "Lcode.Fp.weight4_doubles",
    "Lcode.Fp.weight4G_doubles",
    "Lcode.Fp.charge3_any_order",
    "Lcode.Fp.charge3_doubles",
    "Lcode.Fp.charge3_plain",
    "Lcode.Fp.cumForward_doubles",
    "Lcode.Fp.cumBackward_doubles",
    "Lcode.Fp.cumBackward_plain"
   ],
   "note": "Doubles without underflow and overflow. x ** 2 is the rounded square; no contraction to fused operations except inside the GPU weights, which may be any function within six units of roundoff of the exact weights."
  },
  {
   "property": "C71",
   "status": "proved",
   "theorems": [
    "Lcode.Fp.alphaF_range",
    "Lcode.Fp.rows_doubles",
    "Lcode.Fp.dirichlet_wall",
    "Lcode.Fp.neumann_wall",
    "Lcode.Fp.neumann_divisor",
    "Lcode.Fp.dirichlet_error",
    "Lcode.Fp.neumann_error",
    "Lcode.Fp.solvers_doubles",
    "Lcode.Fp.solvers_doubles_any",
    "Lcode.Fp.exact_bound",
    "Lcode.Fp.fields_doubles",
    "Lcode.Fp.source_change",
    "Lcode.Fp.Ef_doubles",
    "Lcode.Fp.Er_doubles",
    "Lcode.Fp.Bf_doubles",
    "Lcode.Fp.Bf_axis",
    "Lcode.Fp.Bz_doubles",
    "Lcode.Fp.computeEf_doubles",
    "Lcode.Fp.computeEr_doubles",
    "Lcode.Fp.computeEz_doubles",
    "Lcode.Fp.computeBf_doubles",
    "Lcode.Fp.computeBz_doubles"
   ],
   "note": "Doubles without underflow and overflow, operations in the order of the source and without fused multiply-add (numba without fastmath). The screening factor is an argument: the rounding of its square root is not modelled."
  },
  {
   "property": "C72",
   "status": "proved",
   "theorems": [
    "Lcode.Fp.sqrtF_nearest",
    "Lcode.Fp.sqrtF_err",
    "Lcode.Fp.sqrtF_square",
    "Lcode.Fp.loop_ends_doubles",
    "Lcode.Fp.substeps_cover_doubles",
    "Lcode.Fp.single_push_doubles",
    "Lcode.Fp.layer_covered_doubles",
    "Lcode.Fp.step_not_restored",
    "Lcode.Fp.push_at_rest_doubles",
    "Lcode.Fp.no_current_doubles",
    "Lcode.Fp.fields_quiet_doubles",
    "Lcode.Fp.neutral_stays_doubles",
    "Lcode.Fp.init_rest_doubles",
    "Lcode.Fp.init_neutral_doubles",
    "Lcode.Fp.quiet_start_doubles",
    "Lcode.Fp.push_in_window_doubles",
    "Lcode.Fp.layers_in_window_doubles",
    "Lcode.Fp.mobile_not_neutral",
    "Lcode.Fp.gamma_doubles",
    "Lcode.Fp.advance_centred_doubles"
   ],
   "note": "Doubles without underflow, overflow and signed zeros, operations in the order of the source and without fused multiply-add; the isfinite tests are taken as passed; the sine and cosine of the declustering term are an arbitrary function; trapped-path-limit is 0."
  },
  {
   "property": "C73",
   "status": "proved",
   "theorems": [
    "Lcode.Fp.weight2_doubles",
    "Lcode.Fp.shape2_total",
    "Lcode.Fp.contrib_total",
    "Lcode.Fp.contrib_cells",
    "Lcode.Fp.volume2_doubles",
    "Lcode.Fp.accumulated_doubles",
    "Lcode.Fp.density_charge_doubles",
    "Lcode.Fp.rest_charge_doubles",
    "Lcode.Fp.run_charge_doubles"
   ],
   "note": "Same model of doubles as C72. The deposited charge of a particle, charge * gamma / (gamma - p_z), is taken as rounded by the code; its own rounding is bounded only for particles at rest."
  },
  {
   "property": "C74",
   "status": "proved",
   "theorems": [
    "Lcode.Fp.push3_at_rest_doubles",
    "Lcode.Fp.step3_quiet_doubles",
    "Lcode.Fp.quiet3_start_doubles",
    "Lcode.Fp.sterbenz",
    "Lcode.Fp.mirror_doubles",
    "Lcode.Fp.fold_within",
    "Lcode.Fp.push3_inside_doubles",
    "Lcode.Fp.layers3_inside_doubles",
    "Lcode.Fp.inside3_touches",
    "Lcode.Fp.grid3_inside",
    "Lcode.Fp.deposited3_doubles",
    "Lcode.Fp.dro_doubles",
    "Lcode.Fp.layers3_currents",
    "Lcode.Fp.run3_charge_doubles"
   ],
   "note": "The fast transforms, the mean and the smoothing of the noise filter are arguments of the model: any functions in (2) and (3), functions that map zeros to zeros in (1). Overflow, underflow, infinities and NaN are not modelled; window-width-steps is odd and below 2^40."
  },
  {
   "property": "C75",
   "status": "proved",
   "theorems": [
    "Lcode.Profiles2D.spacing",
    "Lcode.Profiles2D.placed_usable",
    "Lcode.Profiles2D.factor_density",
    "Lcode.Profiles2D.weights_are_rings",
    "Lcode.Profiles2D.flat_total",
    "Lcode.Profiles2D.weights_bounded",
    "Lcode.Profiles2D.left_out",
    "Lcode.Profiles2D.subChannel_edges",
    "Lcode.Profiles2D.narrow_fails",
    "Lcode.Profiles2D.inverted_fails",
    "Lcode.Profiles2D.one_particle_fails",
    "Lcode.Profiles2D.getProfile_number",
    "Lcode.Profiles2D.getProfile_name"
   ],
   "note": "Exact arithmetic; nothing in the package imports the file, the running code uses lcode/plasma3d/profile.py (C30)."
  },
  {
   "property": "C76",
   "status": "proved",
   "theorems": [
    "Lcode.Plasma3D.fineGrid_eq",
    "Lcode.Plasma3D.coarseGrid_antisymm",
    "Lcode.Plasma3D.searchsorted_spec",
    "Lcode.Plasma3D.influence_spec",
    "Lcode.Plasma3D.mix_between",
    "Lcode.Plasma3D.mix_bilinear",
    "Lcode.Plasma3D.dual_undisturbed",
    "Lcode.Plasma3D.virtual_ratio",
    "Lcode.Plasma3D.virtual_reach",
    "Lcode.Plasma3D.virtual_safe",
    "Lcode.Plasma3D.virtual_unsafe"
   ],
   "note": "Exact arithmetic. virtual_unsafe is a finding. The option exists on the GPU only and is unfinished: no run with it gets past its first layer (C63)."
  },
  {
   "property": "C77",
   "status": "proved",
   "theorems": [
    "Lcode.Legacy.Two.makeBeam2_warned",
    "Lcode.Legacy.Two.never_saved",
    "Lcode.Legacy.Two.geometry_2d",
    "Lcode.Legacy.Two.makeBeam2_two",
    "Lcode.Legacy.Two.makeBeam2_succeeds",
    "Lcode.Legacy.Two.rotates_one_way",
    "Lcode.Legacy.Two.makeBeam2_three",
    "Lcode.Legacy.Two.count_quantiles",
    "Lcode.Legacy.Two.gauss_range",
    "Lcode.Legacy.Two.gauss_count",
    "Lcode.Legacy.Two.layer_count",
    "Lcode.Legacy.Two.rGauss_ignores_sigma",
    "Lcode.Legacy.Two.weibull_inv",
    "Lcode.Legacy.Two.rGauss_count"
   ],
   "note": "Exact arithmetic; the normal distribution is any strictly increasing distribution function with its inverse; distributions return as many numbers as asked for; a particle exactly on the axis (nan in numpy) is left out of the angular momentum statement."
  },
  {
   "property": "C78",
   "status": "proved",
   "theorems": [
    "Lcode.Plasma3D.plasma_second_order",
    "Lcode.Plasma3D.solver_second_order",
    "Lcode.Plasma3D.stepDxi_particles",
    "Lcode.Plasma3D.interpolate_smooth",
    "Lcode.Plasma3D.sampled_near",
    "Lcode.Plasma3D.stream_consistent",
    "Lcode.Plasma3D.helix_converges"
   ],
   "note": "Exact arithmetic, CPU kernel (the GPU kernel computes the same, C47). The fields are given from outside: that the solver's own half-step fields are samples of the true self-consistent fields up to d is a hypothesis; C66 bounds the error of the field solver for given sources. Declustering off; electrons in the theorem about the whole solver (ions make the same step, stepDxi_particles). The true trajectory has three bounded derivatives and keeps a distance from the boundary."
  },
  {
   "property": "C79",
   "status": "proved",
   "theorems": [
    "Lcode.Plasma2D.plasma2d_converges",
    "Lcode.Plasma2D.substepped_converges",
    "Lcode.Plasma2D.loop_converges",
    "Lcode.Plasma2D.interp_near",
    "Lcode.Plasma2D.noise_le",
    "Lcode.Plasma2D.sampled_axis_near",
    "Lcode.Plasma2D.turned_error",
    "Lcode.Plasma2D.circle_converges",
    "Lcode.Plasma2D.through_axis_converges"
   ],
   "note": "Exact arithmetic. First order only: when the half-step point lies beyond the axis the code takes the radial field at the mirrored radius without turning it, and the radius where the fields are taken ignores the azimuthal motion. The fields are given from outside; that the solver's arrays sample the true self-consistent fields is a hypothesis. Pushes that land exactly on the axis are excluded for rotating particles unless the true particle is away from the axis: there the code really loses p_phi."
  },
  {
   "property": "C80",
   "status": "proved",
   "theorems": [
    "Lcode.Plasma3D.integral_const",
    "Lcode.Plasma3D.integral_lip",
    "Lcode.Plasma3D.integral_kept",
    "Lcode.Plasma3D.integral_kept2",
    "Lcode.Plasma3D.accelerated_kept",
    "Lcode.Plasma2D.integral_second_order"
   ],
   "note": "A consequence of C78 and C79 (2D particles that do not rotate to second order: C82, integral_second_order) with their conditions: exact arithmetic, fields given from outside. That the Phi array of the 3D code approximates this potential is C66 (Lap Phi = j_z - rho) and not used here."
  },
  {
   "property": "C81",
   "status": "proved",
   "theorems": [
    "Lcode.Diag.Targets.field_run",
    "Lcode.Diag.Targets.rows_eq_layers",
    "Lcode.Diag.Targets.field_too_many",
    "Lcode.Diag.Targets.field_misfit",
    "Lcode.Diag.Targets.field_late_start",
    "Lcode.Diag.Targets.zero_period",
    "Lcode.Diag.Targets.beam_run",
    "Lcode.Diag.Targets.beam_due_iff",
    "Lcode.Diag.Targets.list_due_iff",
    "Lcode.Diag.Targets.plasma_run",
    "Lcode.Diag.Dispatch.process_calls",
    "Lcode.Diag.Dispatch.process_log",
    "Lcode.Diag.Dispatch.dispatch_case"
   ],
   "note": "The present loop does not call `process` (the call is commented out, push_solver.py:135-137): a list of diagnostics with one of these classes fails with AttributeError at the first layer, and so does MyDiagnostics.process, which asks for a method `dxi` that no class has; this is a matter of missing names and is not modelled. Pictures are not modelled. Exact arithmetic: with doubles `(t - t_start) % period == 0` misses times such as 0.3 for the period 0.1."
  },
  {
   "property": "C82",
   "status": "proved",
   "theorems": [
    "Lcode.Plasma2D.plasma2d_second_order",
    "Lcode.Plasma2D.second_order_away",
    "Lcode.Plasma2D.slant_second_order",
    "Lcode.Plasma2D.not_crosses",
    "Lcode.Plasma2D.push_step2",
    "Lcode.Plasma2D.crosses_case"
   ],
   "note": "Exact reals. The fields of a layer are compared with the true ones in the middle of the layer; how well the field solver achieves that is not part of this statement. The first-order loss in a push through the axis is a property of the code (the fields are taken at the mirrored radius but not turned, move.py:88-89), hence the count of crossings. Particles with azimuthal momentum: C79, first order."
  },
  {
   "property": "C83",
   "status": "proved",
   "theorems": [
    "Lcode.Cfg.c_config_text",
    "Lcode.Cfg.c_config_missing",
    "Lcode.Cfg.c_config_only",
    "Lcode.Cfg.c_config_default",
    "Lcode.Cfg.default_keys_case",
    "Lcode.Cfg.labels_right",
    "Lcode.Cfg.template_form",
    "Lcode.Cfg.form_ok",
    "Lcode.Cfg.fmt_forms",
    "Lcode.Cfg.format_cases"
   ],
   "note": "str.format is modelled for the fields the template uses (plain names, no conversion and no format spec). What the C program reads is not part of the repository; the statement is about the text."
  },
  {
   "property": "C84",
   "status": "proved",
   "theorems": [
    "Lcode.Cfg.MainGet.get_safe",
    "Lcode.Cfg.MainGet.get_proper",
    "Lcode.Cfg.MainGet.get_improper",
    "Lcode.Cfg.MainGet.repo_proper",
    "Lcode.Cfg.MainGet.get_cases"
   ],
   "note": "Parsing of the command line by argparse and the printed text are not modelled; the examples directory is not the working directory."
  },
  {
   "property": "C85",
   "status": "proved",
   "theorems": [
    "Lcode.DiagStart.accepted_iff",
    "Lcode.DiagStart.refused_first",
    "Lcode.DiagStart.refused_errors",
    "Lcode.DiagStart.pullOne_ok",
    "Lcode.DiagStart.slice_output",
    "Lcode.DiagStart.slicer_history",
    "Lcode.DiagStart.diag_cases"
   ],
   "note": "probe_lines and limits are represented by their numbers of dimensions; output periods are C50, what is written C37 and C38."
  }
 ]
}