M="Lcode.Mpi."
c("C10","proved",[M+x for x in ("steps_partition","final_step_unique","run_times")])
c("C11","proved",[M+x for x in ("never_deadlocks","terminates","run_exists")],
  "Holds for every interleaving and for both synchronous and buffered delivery of each single message.")
c("C12","proved",[M+x for x in ("pipe_perm_seq","parallel_equals_sequential","single_process_sequential","parallel_equals_sequential_2D","noOvertaking_of_noRush","world2D_is_stepDt","parallel_equals_sequential_3D","world3D_is_runDt","parallel_differs_3D")],
  "Proved for every abstract solver that is order-insensitive inside a layer (Faithful) and finishes particles behind their layer (Causal); both are derived for the modelled 2D pusher, the second under NoRush. For the 3D pusher the second is a genuine hypothesis: parallel_differs_3D is a finding.")
c("C13","proved",[M+x for x in ("second_call_repeats_times","second_call_starts_empty","second_call_starts_empty_2D","second_call_starts_empty_3D","two_calls_run")],
  "Finding: repeated calls of step do not continue a run.")
c("C41","proved",[B+x for x in ("push_leapfrog","particle_fields_exact","free_motion")])

P="Lcode.Plasma2D."
c("C14","proved",[P+x for x in ("neumann_solves","dirichlet_solves","solution_unique","last_divisor","sweep_bounds")])
c("C15","proved",[P+x for x in ("cumtrapz_forward","cumtrapz_backward","cumtrapz_directions","cumtrapz_affine","cumtrapz_linear","cumtrapz_monotone")])
c("C16","proved",[P+x for x in ("fields_solve_equations","fields_average","quiet_fields","factor_ge_one","factor_eq_one")])

c("C17","proved",[P+x for x in ("deposit_shape","deposit_pointwise","writes_in_grid","write_outside","shape_partition","shape_nonneg","deposit_conserves","density_conserves","vz_lt_one")],
  "write_outside is a finding: a particle at r >= (M+1/2)h is written past the end of the arrays.")
c("C18","proved",[P+x for x in ("uniform_density","odd_ppc_not_uniform","initial_quiet","resting_row","resting_quiet","init_resting")],
  "odd_ppc_not_uniform refutes unit density next to the axis for odd particles per cell.")
c("C19","proved",[P+x for x in ("push_in_window","push_spec","interp_shape","free_push","push_at_rest")])
c("C20","proved",[P+x for x in ("loop_ends","substeps_cover","single_push")])
c("C22","proved",[P+x for x in ("electrons_placed","uniform_electrons","ions_neutralise")])
c("C21","proved",[P+x for x in ("layer_decimates","layer_covered","stepDxi_covered","layers_total","alias_harmless","advance_centred","currents_consistent")],
  "trapped-path-limit = 0 (the default); any other value makes step_dxi raise, because it reads the attribute q of a dict.")
c("C42","proved",[P+x for x in ("neutral_stays","quiet_start","neutral_noise","declustering_kicks_quiet_plasma")],
  "neutral_noise and declustering_kicks_quiet_plasma are the finding for declustering-enabled = True.")

Q="Lcode.Plasma3D."
c("C23","proved",[Q+x for x in ("local_range","weight4_moments","weight4_bspline","weight4_nonneg","interpolate_shape","interpolate_affine")])
c("C24","proved",[Q+x for x in ("depositAmount_shape","stencil_inside","depositSort_shape","touched_inside","depositSort_support","depositSort_conserves","depositSort_sign","depositSort_perm","deposit_interpolate_adjoint")])
c("C25","proved",[Q+x for x in ("moveOne_boundary","switched_off_stays","correctBoundary_mirror","mirror_inside","push_reads_inside","push_reads_outside","finish3_spec","moveOne_spec","moveOne_rest","moveOne_free")],
  "push_reads_outside is a finding: the field is read outside the arrays for particles flung further than the mirrored range.")
c("C26","proved",[Q+x for x in ("makePlasmaGrid_lattice","makePlasmaGrid_antisymm","makePlasmaGrid_spacing","makePlasmaGrid_inside","makePlasmaGrid_off_edges","makePlasmaGrid_per_cell","fraction_branch_dead")])
c("C27","proved",[Q+x for x in ("initial_density","background_neutral","mobile_neutral","rest_no_current","makePlasmaSingle_mem","initial_inside","influences_spec")],
  "dual-plasma-approach itself raises NameError at start (undefined pu_type), so influences_spec is about the helper alone.")
c("C28","proved",[Q+x for x in ("dirichletSolve_spec","dirichlet_unique","mixSolve_spec","mixed_unique","neumannSolve_spec","bzRhs_sum","calcBz_spec","calcEz_spec","transverse_spec","computeFields_spec","zero_fields")],
  "Exact real arithmetic; the DST-I/DCT-I of scipy are modelled by their defining sums.")
c("C29","proved",[Q+x for x in ("filter_formula","filter_conserves","momentum_conserved","affine_untouched","kick_bounded","force_bound","trapped_free","smooth_total","chaotic_mean","damping_option_ignored")],
  "The FFT and scipy.ndimage.fourier_gaussian are modelled by their defining sums. damping_option_ignored is a finding.")
c("C43","proved",[Q+x for x in ("quiet_step","quiet_forever","initial_quiet3","history_contained","history_touched","step_scheme","step_declustered","run_layer")])
c("C44","proved",[Q+x for x in ("step_swap","run_swap")])
c("C30","proved",[Q+x for x in ("zCoef_segment","zCoef_outside","zCoef_range","zCoef_joint","rampStart_spec","radial_simple","radial_sharp","radial_ramp","ramp_edge_spike","channel_ramp","channel_ramp_uniform","rTable_segment","profile_spec","profile_user","profile_nonneg","profile_ratio","profiled_single","profiled_rings")],
  "ramp_edge_spike, channel_ramp and channel_ramp_uniform are findings (the property is refuted there). Reading the text of the tables is not modelled. lcode/plasma/profiles.py is dead code and not modelled.")
R="Lcode.Beam3D."
c("C31","proved",[R+x for x in ("layout_pointwise","share_mirrored","sweep_pointwise","shape3_total","layout_conserves","sweep_conserves","deposit_inside","share_is_reversed","share_reversed_example","step_plasma_given")],
  "share_is_reversed is a finding: the shares of the two layers are exchanged.")
c("C32","proved",[R+x for x in ("push_leapfrog","interp3_split","field_one_step_behind","field_uniform_xi","field_weights","field_extrapolated")],
  "field_one_step_behind and field_extrapolated are findings: the weights of the two layers are exchanged. CPU kernel only.")
c("C33","proved",[R+x for x in ("push_outcomes","push_at_least_one","push_waiting","push_causal","push_reads_inside","lostRadius_fits","push_reads_outside","push_lost_and_fell","push_finished_but_fell","step_accounts","step_new_beam","run_no_duplication","step_drops_particle","step_keeps_lost_particle")],
  "push_lost_and_fell, push_finished_but_fell, step_drops_particle, step_keeps_lost_particle, push_reads_outside are findings. CPU kernel only.")
c("C34","proved",[R+x for x in ("operations_keep_rows","source_sorted","source_by_count","source_layers","source_delivers_once","source_displacement","source_displaced_by_head","initGenerated_rows")],
  "source_displaced_by_head is a finding.")
c("C40","proved",[R+x for x in ("rigid_deposits","rigid_transposed","rigid_correct_iff","rigid_swaps_axes")],
  "rigid_swaps_axes is a finding: numpy.meshgrid is called without indexing='ij'.")
N="Lcode.Gen."
c("C35","proved",[N+x for x in ("generated_beam","generated_2d","generated_3d","generated_2d_delivered","generated_3d_delivered","segment_located","segment_missing","xiShape_range","layersNumber_spec","layerCurrent_spec","layerCount_bounds","layer_charge","layer_charge_matches","layer_charge_opposite","opposite_segment","radiusOf_spec","trans2_ok","trans3_ok","trans2_draws","trans3_draws","energy_ok","multi_energy_whole_layer","generator_raises_iff","joint_raises","twoSegments_generated","segments_with_default","segments_without_default","unknown_scalar_raises","segment_fields","default_beam","shape_of_user","born_inside_2d","born_inside_3d","whole_generated","whole_layers","whole_flat_count","ssm_beam","highR_beam")],
  "Real arithmetic; the random generator is any state machine whose deviates are in their documented ranges. layer_charge_opposite, opposite_segment, joint_raises, multi_energy_whole_layer are findings.")
D="Lcode.Diag."
c("C36","proved",[D+x for x in ("cond_iff","every_period_written","written_near_period","writers_of_multiple","short_period_every_step","outputs_spaced","outSteps_rank0","outSteps_other","beam_files_of_run","plasma_files_of_run")],
  "Exact arithmetic: rounding of the floats in absremainder is not modelled.")
c("C37","proved",[D+x for x in ("files_of_run","run_total","select_iff","table3_consts","fxi3_files","fxi2_files","fxi2_unsupported","slice_x_files","slice_y_files","slice_xy_files","slice_r_files","slice_r_unsupported","probe_nearest","probe_inside","plane_probe_values","line_probe_values","axis_probe_value","radial_probe_values","radial_plane_values","probe_wraps","probe_beyond","energyFlux_nonneg","energyFlux_zero_iff","amaxAbs_spec","beam_files_of_run","plasma_files_of_run","snapshots_of_run","ion_snapshots_of_run","snapshot_layers","no_snapshots","rigid_rejected","names_distinct","name_collision","xy_first_step_empty")],
  "Pictures are not modelled. name_collision, probe_wraps, xy_first_step_empty are findings.")
c("C38","proved",[D+x for x in ("slicerX_coords","slicerY_coords","slicerXY_coords","slicerR_coords","limits_sound","limits_complete","radial_limits_sound","radial_limits_complete","offset_line","keep_iff","default_layers","default_columns","default_slice_complete_iff","default_xy_misses_edge","default_radial_misses_wall","xi_x_offset_raises","xi_y_offset_clamped","xy_unequal_raises")],
  "default_slice_complete_iff, default_xy_misses_edge, default_radial_misses_wall, xi_x_offset_raises, xy_unequal_raises are findings (the original claim, that default limits cover the whole window, is refuted).")
c("C39","proved",[D+x for x in ("load3_of_saved","load2_table","load2_of_saved_raises","load2_renamed","plasma_file_not_loadable")],
  "load2_of_saved_raises and plasma_file_not_loadable are findings. The npz format itself is modelled as a list of named arrays.")
c("C45","proved",[M+x for x in ("causality_2D","causality_first_step_2D","window_decides_2D","order_irrelevant_2D","one_layer_per_step_2D","causality_3D","causality_first_step_3D","window_decides_3D","domain_of_dependence","noOvertaking_of_noRush")], "The refutation of strict causality is one_layer_per_step_2D.")
c("C46","proved",[M+x for x in ("continued_run_2D","continued_run_3D","continued_run","startLayer_stored","startLayer_missing","continuation_loses_beam_2D","continuation_displaced_3D","continuation_differs_3D")], "The refutations are continuation_loses_beam_2D, continuation_displaced_3D and continuation_differs_3D. Reading the state from a file is not modelled; the stored state is the plasma of the uninterrupted run.")
c("C47","proved",[Q+x for x in ("gpu_run_same","gpu_run_exists","gpu_step_same","gpu_step_exists","gpu_deposit_same","gpu_deposit_exists","gpu_move_same","gpu_free_same","gpu_fields_same","dstG_eq","dctG_eq","mixG_eq","gpu_filter_same","gpu_inhom_same","gpu_inhom_two","weight4G_eq","flat_node","flat_wraps","calm_of_slow","gpu_first_layer")]+[R+x for x in ("gpu_layout_same","gpu_layouts_same","gpu_layouts_exist","gpu_substeps_same","gpu_deposit_wraps")], "Findings: dctG_eq (sign), gpu_inhom_two, flat_wraps, gpu_deposit_wraps. gpu_first_layer shows the hypotheses met by the initial plasma of every profile. The GPU beam pusher is a different algorithm: C48. Trusted: cupy numbers the elements of a raw argument in row-major order, and rfft2 is by definition.")
c("C48","proved",[R+x for x in ("gpu_push_step","gpu_kick_midpoint","gpu_wrong_mass","gpu_kick_work","gpu_magnetic_energy","gpu_electric","gpu_kick_reversible","gpu_substep_reversible","gpu_force_free","gpu_force_free_case","cpu_magnetic_energy","cpu_not_reversible","cpu_force_free","interp3G_same","fieldG_same","gpu_push_outcomes","gpu_push_at_least_one","gpu_push_layer","gpu_push_causal","gpu_push_waiting","gpu_step_books","gpu_run_no_duplication","gpu_free","gpu_push_lost_and_fell","gpu_step_keeps_particle")], "Refutations: gpu_wrong_mass and the right-to-left failure in gpu_kick_midpoint (an equivalence), gpu_push_lost_and_fell; contrast with the CPU: cpu_magnetic_energy, cpu_not_reversible, and gpu_step_keeps_particle against step_drops_particle (C33).")
c("C49","proved",[Q+x for x in ("computeFields_mirror","depositSort_mirror","interpolate_mirror","moveOne_mirror","correctBoundary_flip","step_mirror","run_mirror","run_mirrorY","step_order","run_order","symmetric_run","initial_symmetric","stream_step","stream_noLeap","quiet_noLeap","leaper_fly","leap_breaks_mirror")], "Refutation: leap_breaks_mirror. stream_noLeap and quiet_noLeap show that moving and resting plasmas meet the hypotheses for any number of layers.")
c("C50","proved",["Lcode.Sim."+x for x in ("solver_configuration","same_dictionary_same_configuration","adjust_twice","create_iff","run_geometry","geometry_locked","first_call_times","default_number","explicit_number","later_calls","first_beam","rigid_sticks","period_ratchet","period_never_lowered","layers_cover","nodes_cover","mixed_xi_step","circ_spelling","capitals_not_adjusted","rigid_case")], "Findings: later_calls with mixed_xi_step, rigid_sticks with rigid_case, period_ratchet, circ_spelling, capitals_not_adjusted. Floats are exact rationals: the rounding of the quotient time-limit/time-step is outside the model.")
c("C51","proved",["Lcode.Cfg."+x for x in ("runas_text","runas_fails_iff","Shows.unique","runas_other_keys","recorded_keys","rerun_same_grid","demo_file","rshape_not_recorded","demo_rshape","coefficient_not_recorded","capital_halved")], "Findings: rshape_not_recorded, coefficient_not_recorded, capital_halved. rerun_same_grid is in exact arithmetic: rounding of n*h/h in floats is outside the model.")
c("C52","proved",["Lcode.Plasma2D."+x for x in ("rhojRow_split","movePart_part","stepDxi_split","layers_split")]+["Lcode.Plasma3D."+x for x in ("depositSort_split","moveOne_part","step_split","run_split")]+["Lcode.Beam2D.pushRow_unseen","Lcode.Beam2D.layout_split","Lcode.Beam3D.pushRow_unseen","Lcode.Beam3D.layout_split"]+["Lcode.Mpi."+x for x in ("split_run_2D","split_run_3D","split_simulation_2D","split_simulation_3D","thirds_2D","thirds_3D")], "In 3d with declustering the property makes no sense: the noise filter reads the particles as an n x n array, so their number and order matter. Statements are in exact arithmetic; the sums of the code are in floating point.")
c("C53","proved",["Lcode.Mpi."+x for x in ("test_particles_2D","test_particles_3D","test_particle_ahead_2D","quiet_run_2D","quiet_run_3D","free_beam_2D","free_beam_rotating_2D","free_beam_3D","offAxis_of_M","OnLine2.energy")]+["Lcode.Plasma2D.init_neutral","Lcode.Plasma3D.initial_quiet3"], "Part (a) holds for any plasma solver plugged into the layer loop. Part (b) in 2d is without declustering; the head-of-window exception is the finding of C04 and C45.")
c("C54","proved",["Lcode.Mpi."+x for x in ("mirror_simulation_3D","symmetric_simulation_3D","quiet_simNoLeapY","mirrorX_refuted","run_sym")]+["Lcode.Beam3D.pushRow_mirrorY","Lcode.Beam3D.layout_mirrorY","Lcode.Plasma3D.step_mirrorY","Lcode.Plasma3D.initial_symmetricY"], "The condition on leaps is the one of C49 (refuted there without it), asked of the first run only. The refutation for x is the finding of C33 (the pusher compares x with the end of the layer).")
c("C55","proved",["Lcode.Mpi."+x for x in ("charge_conjugation_3D","charge_conjugation_paths_3D")]+["Lcode.Plasma3D.step_conj","Lcode.Beam3D.pushRow_conj","Lcode.Beam3D.layout_conj","Lcode.Beam3D.initRow_conj","Lcode.Plasma2D.conjugation_refuted_2D"], "No hypotheses. The contrast for the 2D code is a refutation at the level of compute_fields.")
c("C56","proved",["Lcode.Mpi."+x for x in ("rotation_reversed_2D","noRotation_iff","no_rotation_2D","no_rotation_beam_2D","initial_noRotation")]+["Lcode.Plasma2D.stepDxi_rev","Lcode.Beam2D.pushRow_rev"], "The reversed beams agree up to the order of storage (sorting is not assumed stable). Stated for the fused loop with any correct argsort.")
c("C57","proved",["Lcode.Legacy."+x for x in ("profile_read","example_read","reading_surprises","split_segments","blocks_exist","split_refused","split_refused_value","split_empty","intervals_eq","layersOf_append","layerCount_profile","layer_current","radius_quantile","amp_zero","short_segment","segmentBeam_spec","legacy_beam","segment_count","chained_count","blocks_chained","profile_layers","geometry_2d_refused","ids_not_unique","default_segment_ok")], "Real arithmetic; numpy.random is any generator with uniform deviates in [0,1) and permutations; float() of a text and the normal quantile are arbitrary functions.")
c("C58","proved",["Lcode.Fp."+x for x in ("fl_err","fl_nearest","fl_mono","fl_exact","isFloat_fl","quot_err","layers3_exact","layers3_near","intCount_or","intCount_iff","intCount_floats","intCount_good_step","intCount_floor","whole_window","lost_layer","border_forms","border_lt","border_err","between_unique","source2_floats","source3_floats","border_example","again_or","rerun_cells","rerun_cells_exact","rerun_other_grid","time_err","cond_near","written_floats","written_every_mth","layer_every_mth","node_exact","floorCount_or","floorCount_floats","kept_layers","slice_example")], "Binary64 with an unbounded exponent: no overflow, no subnormal numbers. Python's float of a decimal text is correctly rounded; float // float is the floor of the exact quotient; math.remainder is exact. Of the other claims only counts, borders, sources, times and output conditions are restated with rounding; fields and particle motion are not.")
c("C59","proved",["Lcode.Mpi.Datatype."+x for x in ("datatype_describes","accepted_iff","transfer","count_exact","items_exact","beam2_type","beam3_type","beam_message","end_message","id_kept","id_collision")], "MPI's type maps, sizes, extents and Get_count are modelled by the definitions of the MPI standard, mpi4py's item count by the extent rule.")
c("C60","proved",["Lcode.Mpi.shift_run_2D","Lcode.Mpi.shift_simulation_2D","Lcode.Mpi.shift_run_3D","Lcode.Mpi.shift_simulation_3D","Lcode.Mpi.nothing_held_3D","Lcode.Mpi.shift_narrow_3D","Lcode.Beam3D.shift_fails_3D","Lcode.Beam3D.pushRow_shift"], "Exact real arithmetic. 2D: the window is a whole number of radial cells. The 3D claim is proved under the stated conditions and refuted without them (shift_fails_3D).")
c("C61","proved",["Lcode.Fp."+x for x in ("touched_iff","read_safe","plasma_safe_iff","whole_window_safe_iff","initial_plasma_outside","window_51","radius_le_lost","beam_safe_iff","beam_safe","kept_beam_safe","small_window","touched3_iff","fits3","plasma3_safe","padding_two","mirrorF_inside","move3_reads_safe","gpu3_safe","beam3_within","kept_beam3_safe","small_window3")], "Binary64 with unbounded exponent. Square roots are faithfully rounded. Positions are those the pushers produce; a beam file may of course contain any position (beam_safe_iff, touched3_iff).")
c("C62","proved",["Lcode.Mem."+x for x in ("stepDxiH_shows","stepDxiH3_shows","stepDtH_rel","dump_eq","runH_eq","stepV_2D","stepV_3D","initH2_shows","initH3_shows","shared_2D","loaded_2D","shared_3D","loaded_3D","rows_2D","rows_3D","drained_2D","drained_3D","loaded_stub_fails","loaded_twice")], "The arrays of one particle sort are one unit of the store (the code copies and writes them together), so are the arrays of a group of currents and the eleven arrays of a 3D beam; sharing inside such a unit is excluded by reading: the init functions make every array with its own call. With an ion background the 3D code copies const_arrays.ro_initial, as modelled.")
c("C63","proved",["Lcode.Start."+x for x in ("run2_ok_iff","constructor2_errors","run2_errors","run2_fails_early","run3_ok_iff","run3_adjusted","constructor3_errors","run3_errors","run3_fails_early","wrong_geometry","zero_step","dual_never_runs","failing_options","capital_geometry","run3_case","run3_cases","examples_run","examples_steps","examples_finish","step_default","zero_time_step")], "Model of the operations that can raise because of the configuration; one process, no diagnostics, exact numbers (no infinities). Errors of external parts (cupy, FFT size, profile, beam creation, rigid density) are arbitrary parameters. That no other operation of these functions raises rests on reading the code; numba code does not check indices (C61).")
c("C64","proved",["Lcode.Mpi."+x for x in ("window_length_2D","window_length_first_2D","window_length_3D","window_length_narrow_3D","window_length_first_3D")]+["Lcode.Beam3D."+x for x in ("window_length_fails_3D","last_layer_lost")]+["Lcode.Gen."+x for x in ("longer_beam","longer_beam_layer","longer_driver_2D","longer_driver_3D","longer_driver_case")], "Single-process runs (C12, C39, C48 carry them to parallel runs); exact arithmetic; the random generator is a state machine, so the same seed means the same stream.")
c("C65","proved",["Lcode.Plasma2D."+x for x in ("fields_converge","fields_converge_first","fields_error","converge_Er","converge_Ef","converge_Ez","converge_Bf","converge_Bz","Bz_first_order","Er_first_order")], "Exact arithmetic; one call of the solver with given sources (the predictor-corrector iterations around it are C21, C51). That an exact solution exists is a hypothesis; the case shows one.")
c("C66","proved",["Lcode.Plasma3D."+x for x in ("fields_converge","mixed_converge","dirichlet_converge","bz_converge","mixed_stable","dirichlet_stable","neumann_stable","node_mean","ConvergeCases.case_converges")], "Exact arithmetic; one call of the solver with given sources. That an exact solution exists is a hypothesis; the case shows one. The bound for B_z is of first order because Bz.mean() counts nodes on the perimeter as much as inner ones and because the stability estimate for the Neumann problem loses one order; it is not claimed to be sharp.")
c("C67","proved",["Lcode.Diag.Old."+x for x in ("namesOf_lists","parse_iff","file_of_step","file_names","interrupted","old_fxi_files","old_fxi_total","ni_rejected","joined_accepted","old_maps_files","old_maps_step","old_maps_merging","old_maps_particles","map_nodes","map_grid_whole","map_below","picture_of_layer","pictures_only","numbers_raise","save_raises","save_nothing","Cases.fxi_file","Cases.fxi_run","Cases.maps_run_ok","Cases.maps_condition","Cases.overwritten_spec")], "Exact arithmetic; finite periods; pictures are represented by the array that is drawn. As in C37 a file holds the recorded arrays, not the bytes of the npz format.")
c("C68","proved",["Lcode.Beam3D."+x for x in ("vel_lip","cpu_converges","sampled_error","cpu_converges_sampled","cpu_first_order","cpu_run_pushed","cpu_only_first_order","factor_error","gpu_converges","gpu_converges_sampled","circ_smooth","gpu_second_order_case")], "Exact arithmetic. The solution of the equations of motion is a hypothesis (its existence is not proved in general; a circle in a uniform field is given). Errors are componentwise. The statement is about a particle as long as it is not lost.")
c("C69","proved",["Lcode.Beam2D."+x for x in ("turn_local","half_near","kept_momentum","converges_2d","cylinder_error","felt_error","first_order_2d","run_pushed","circle_case","magnetic_heating","only_first_order_2d","line_case")], "Exact arithmetic. The solution of the equations of motion is a hypothesis (a circle and a straight line are given). Without an external magnetic field the arrays of E_phi and B_z are assumed zero, as the plasma solver computes them. The statement is about a particle as long as it is not lost.")
c("C70","proved",["Lcode.Fp."+x for x in ("sumF_err","sumF_perm","order_matters","addAtF_perm","deposit_doubles","charge_doubles","layer_doubles","sweep_doubles","beam_charge_doubles","exact_is_model","layout_close","density_sign","tiny_negative","order_close","weight4_doubles","weight4G_doubles","charge3_any_order","charge3_doubles","charge3_plain","cumForward_doubles","cumBackward_doubles","cumBackward_plain")], "Doubles without underflow and overflow. x ** 2 is the rounded square; no contraction to fused operations except inside the GPU weights, which may be any function within six units of roundoff of the exact weights.")
c("C71","proved",["Lcode.Fp."+x for x in ("alphaF_range","rows_doubles","dirichlet_wall","neumann_wall","neumann_divisor","dirichlet_error","neumann_error","solvers_doubles","solvers_doubles_any","exact_bound","fields_doubles","source_change","Ef_doubles","Er_doubles","Bf_doubles","Bf_axis","Bz_doubles","computeEf_doubles","computeEr_doubles","computeEz_doubles","computeBf_doubles","computeBz_doubles")], "Doubles without underflow and overflow, operations in the order of the source and without fused multiply-add (numba without fastmath). The screening factor is an argument: the rounding of its square root is not modelled.")
c("C72","proved",["Lcode.Fp."+x for x in ("sqrtF_nearest","sqrtF_err","sqrtF_square","loop_ends_doubles","substeps_cover_doubles","single_push_doubles","layer_covered_doubles","step_not_restored","push_at_rest_doubles","no_current_doubles","fields_quiet_doubles","neutral_stays_doubles","init_rest_doubles","init_neutral_doubles","quiet_start_doubles","push_in_window_doubles","layers_in_window_doubles","mobile_not_neutral","gamma_doubles","advance_centred_doubles")], "Doubles without underflow, overflow and signed zeros, operations in the order of the source and without fused multiply-add; the isfinite tests are taken as passed; the sine and cosine of the declustering term are an arbitrary function; trapped-path-limit is 0.")
c("C73","proved",["Lcode.Fp."+x for x in ("weight2_doubles","shape2_total","contrib_total","contrib_cells","volume2_doubles","accumulated_doubles","density_charge_doubles","rest_charge_doubles","run_charge_doubles")], "Same model of doubles as C72. The deposited charge of a particle, charge * gamma / (gamma - p_z), is taken as rounded by the code; its own rounding is bounded only for particles at rest.")
c("C74","proved",["Lcode.Fp."+x for x in ("push3_at_rest_doubles","step3_quiet_doubles","quiet3_start_doubles","sterbenz","mirror_doubles","fold_within","push3_inside_doubles","layers3_inside_doubles","inside3_touches","grid3_inside","deposited3_doubles","dro_doubles","layers3_currents","run3_charge_doubles")], "The fast transforms, the mean and the smoothing of the noise filter are arguments of the model: any functions in (2) and (3), functions that map zeros to zeros in (1). Overflow, underflow, infinities and NaN are not modelled; window-width-steps is odd and below 2^40.")
c("C75","proved",["Lcode.Profiles2D."+x for x in ("spacing","placed_usable","factor_density","weights_are_rings","flat_total","weights_bounded","left_out","subChannel_edges","narrow_fails","inverted_fails","one_particle_fails","getProfile_number","getProfile_name")], "Exact arithmetic; nothing in the package imports the file, the running code uses lcode/plasma3d/profile.py (C30).")
c("C76","proved",["Lcode.Plasma3D."+x for x in ("fineGrid_eq","coarseGrid_antisymm","searchsorted_spec","influence_spec","mix_between","mix_bilinear","dual_undisturbed","virtual_ratio","virtual_reach","virtual_safe","virtual_unsafe")], "Exact arithmetic. virtual_unsafe is a finding. The option exists on the GPU only and is unfinished: no run with it gets past its first layer (C63).")
c("C77","proved",["Lcode.Legacy.Two."+x for x in ("makeBeam2_warned","never_saved","geometry_2d","makeBeam2_two","makeBeam2_succeeds","rotates_one_way","makeBeam2_three","count_quantiles","gauss_range","gauss_count","layer_count","rGauss_ignores_sigma","weibull_inv","rGauss_count")], "Exact arithmetic; the normal distribution is any strictly increasing distribution function with its inverse; distributions return as many numbers as asked for; a particle exactly on the axis (nan in numpy) is left out of the angular momentum statement.")
c("C78","proved",["Lcode.Plasma3D."+x for x in ("plasma_second_order","solver_second_order","stepDxi_particles","interpolate_smooth","sampled_near","stream_consistent","helix_converges")], "Exact arithmetic, CPU kernel (the GPU kernel computes the same, C47). The fields are given from outside: that the solver's own half-step fields are samples of the true self-consistent fields up to d is a hypothesis; C66 bounds the error of the field solver for given sources. Declustering off; electrons in the theorem about the whole solver (ions make the same step, stepDxi_particles). The true trajectory has three bounded derivatives and keeps a distance from the boundary.")
c("C79","proved",["Lcode.Plasma2D."+x for x in ("plasma2d_converges","substepped_converges","loop_converges","interp_near","noise_le","sampled_axis_near","turned_error","circle_converges","through_axis_converges")], "Exact arithmetic. First order only: when the half-step point lies beyond the axis the code takes the radial field at the mirrored radius without turning it, and the radius where the fields are taken ignores the azimuthal motion. The fields are given from outside; that the solver's arrays sample the true self-consistent fields is a hypothesis. Pushes that land exactly on the axis are excluded for rotating particles unless the true particle is away from the axis: there the code really loses p_phi.")
c("C80","proved",["Lcode.Plasma3D."+x for x in ("integral_const","integral_lip","integral_kept","integral_kept2","accelerated_kept")]+["Lcode.Plasma2D.integral_second_order"], "A consequence of C78 and C79 (2D particles that do not rotate to second order: C82, integral_second_order) with their conditions: exact arithmetic, fields given from outside. That the Phi array of the 3D code approximates this potential is C66 (Lap Phi = j_z - rho) and not used here.")
c("C81","proved",["Lcode.Diag.Targets."+x for x in ("field_run","rows_eq_layers","field_too_many","field_misfit","field_late_start","zero_period","beam_run","beam_due_iff","list_due_iff","plasma_run")]+["Lcode.Diag.Dispatch."+x for x in ("process_calls","process_log","dispatch_case")], "The present loop does not call `process` (the call is commented out, push_solver.py:135-137): a list of diagnostics with one of these classes fails with AttributeError at the first layer, and so does MyDiagnostics.process, which asks for a method `dxi` that no class has; this is a matter of missing names and is not modelled. Pictures are not modelled. Exact arithmetic: with doubles `(t - t_start) % period == 0` misses times such as 0.3 for the period 0.1.")
c("C82","proved",["Lcode.Plasma2D."+x for x in ("plasma2d_second_order","second_order_away","slant_second_order","not_crosses","push_step2","crosses_case")], "Exact reals. The fields of a layer are compared with the true ones in the middle of the layer; how well the field solver achieves that is not part of this statement. The first-order loss in a push through the axis is a property of the code (the fields are taken at the mirrored radius but not turned, move.py:88-89), hence the count of crossings. Particles with azimuthal momentum: C79, first order.")
c("C83","proved",["Lcode.Cfg."+x for x in ("c_config_text","c_config_missing","c_config_only","c_config_default","default_keys_case","labels_right","template_form","form_ok","fmt_forms","format_cases")], "str.format is modelled for the fields the template uses (plain names, no conversion and no format spec). What the C program reads is not part of the repository; the statement is about the text.")
c("C84","proved",["Lcode.Cfg.MainGet."+x for x in ("get_safe","get_proper","get_improper","repo_proper","get_cases")], "Parsing of the command line by argparse and the printed text are not modelled; the examples directory is not the working directory.")
c("C85","proved",["Lcode.DiagStart."+x for x in ("accepted_iff","refused_first","refused_errors","pullOne_ok","slice_output","slicer_history","diag_cases")], "probe_lines and limits are represented by their numbers of dimensions; output periods are C50, what is written C37 and C38.")
