'Godeep.Props.C01_index_offset_index' depends on axioms: [propext, Classical.choice, Quot.sound]
'Godeep.Props.C01_offset_index_offset' depends on axioms: [propext, Classical.choice, Quot.sound]
'Godeep.Props.C01_size_is_product' depends on axioms: [propext, Quot.sound]
'Godeep.Props.C02_valid_index' depends on axioms: [propext, Classical.choice, Quot.sound]
'Godeep.Props.C02_wrong_rank' depends on axioms: [propext, Quot.sound]
'Godeep.Props.C02_out_of_range' depends on axioms: [propext, Classical.choice, Quot.sound]
'Godeep.Props.C02_success_iff' depends on axioms: [propext, Classical.choice, Quot.sound]
'Godeep.Props.C03_enumeration' depends on axioms: [propext, Classical.choice, Quot.sound]
'Godeep.Props.C03_allIdx_lexicographic' depends on axioms: [propext, Classical.choice, Quot.sound]
'Godeep.Props.C03_offset_monotone' depends on axioms: [propext, Classical.choice, Quot.sound]
'Godeep.Props.C04_wraps' depends on axioms: [propext, Quot.sound]
'Godeep.Props.C04_agrees_when_it_fits' depends on axioms: [propext, Classical.choice, Quot.sound]
'Godeep.Props.C04_overflow' depends on axioms: [propext]
'Godeep.Props.C04_overflow_collision' depends on axioms: [propext]
'Godeep.Props.C05_newZeros' depends on axioms: [propext, Classical.choice, Quot.sound]
'Godeep.Props.C05_newOnes' depends on axioms: [propext, Classical.choice, Quot.sound]
'Godeep.Props.C05_newRand' depends on axioms: [propext, Classical.choice, Quot.sound]
'Godeep.Props.C05_newFromValues' depends on axioms: [propext, Classical.choice, Quot.sound]
'Godeep.Props.C06_set_get' depends on axioms: [propext, Classical.choice, Quot.sound]
'Godeep.Props.C06_set_updates_one' depends on axioms: [propext, Classical.choice, Quot.sound]
'Godeep.Props.C06_set_error' depends on axioms: [propext, Classical.choice, Quot.sound]
'Godeep.Props.C07_copy' depends on axioms: [propext, Classical.choice, Quot.sound]
'Godeep.Props.C07_copy_independent' depends on axioms: [propext, Classical.choice, Quot.sound]
'Godeep.Props.C08_loadData' depends on axioms: [propext, Classical.choice, Quot.sound]
'Godeep.Props.C08_loadData_error' depends on axioms: [propext]
'Godeep.Props.C08_getData' depends on axioms: [propext, Classical.choice, Quot.sound]
'Godeep.Props.C08_loadFromTensor' depends on axioms: [propext, Classical.choice, Quot.sound]
'Godeep.Props.C08_loadFromTensor_error' depends on axioms: [propext, Classical.choice, Quot.sound]
'Godeep.Props.C09_bind_cells' depends on axioms: [propext, Classical.choice, Quot.sound]
'Godeep.Props.C09_bind_shared' depends on axioms: [propext, Quot.sound]
'Godeep.Props.C10_add' depends on axioms: [propext, Classical.choice, Quot.sound]
'Godeep.Props.C10_sub' depends on axioms: [propext, Classical.choice, Quot.sound]
'Godeep.Props.C10_mul' depends on axioms: [propext, Classical.choice, Quot.sound]
'Godeep.Props.C10_div' depends on axioms: [propext, Classical.choice, Quot.sound]
'Godeep.Props.C10_div_panics' depends on axioms: [propext, Classical.choice, Quot.sound]
'Godeep.Props.C10_shape_error' depends on axioms: [propext, Classical.choice, Quot.sound]
'Godeep.Props.C11_neg' depends on axioms: [propext, Classical.choice, Quot.sound]
'Godeep.Props.C11_abs' depends on axioms: [propext, Classical.choice, Quot.sound]
'Godeep.Props.C11_activate' depends on axioms: [propext, Classical.choice, Quot.sound]
'Godeep.Props.C11_addScalar' depends on axioms: [propext, Classical.choice, Quot.sound]
'Godeep.Props.C11_subScalar' depends on axioms: [propext, Classical.choice, Quot.sound]
'Godeep.Props.C11_mulScalar' depends on axioms: [propext, Classical.choice, Quot.sound]
'Godeep.Props.C11_divScalar' depends on axioms: [propext, Classical.choice, Quot.sound]
'Godeep.Props.C11_divScalar_panics' depends on axioms: [propext, Classical.choice, Quot.sound]
'Godeep.Props.C12_transpose' depends on axioms: [propext, Classical.choice, Quot.sound]
'Godeep.Props.C12_transpose_involutive' depends on axioms: [propext, Classical.choice, Quot.sound]
'Godeep.Props.C13_subTensor' depends on axioms: [propext, Classical.choice, Quot.sound]
'Godeep.Props.C13_subTensor_error' depends on axioms: [propext, Quot.sound]
'Godeep.Props.C14_foSubTensor_partial' depends on axioms: [propext, Classical.choice, Quot.sound]
'Godeep.Props.C14_foSubTensor_boundary_fails' depends on axioms: [propext, Classical.choice, Quot.sound]
'Godeep.Props.C14_not_padded' depends on axioms: [propext, Classical.choice, Quot.sound]
'Godeep.Props.C15_concat_partial' depends on axioms: [propext, Classical.choice, Quot.sound]
'Godeep.Props.C15_concat_not_validated' depends on axioms: [propext, Quot.sound]
'Godeep.Props.C16_reshape_partial' depends on axioms: [propext, Classical.choice, Quot.sound]
'Godeep.Props.C16_reshape_smaller_panics' depends on axioms: [propext, Classical.choice, Quot.sound]
'Godeep.Props.C16_reshape_larger_nil' depends on axioms: [propext, Classical.choice, Quot.sound]
'Godeep.Props.C17_dotAt' depends on axioms: [propext, Classical.choice, Quot.sound]
'Godeep.Props.C17_dotAt_vectors' depends on axioms: [propext, Classical.choice, Quot.sound]
'Godeep.Props.C17_dotAt_rank_zero' depends on axioms: [propext]
'Godeep.Props.C17_dotAt_extent' depends on axioms: [propext, Quot.sound]
'Godeep.Props.C17_dotAt_bad_dim_panics' depends on axioms: [propext]
'Godeep.Props.C17_dot' depends on axioms: [propext, Classical.choice, Quot.sound]
'Godeep.Props.C17_dot_matrices' depends on axioms: [propext, Classical.choice, Quot.sound]
'Godeep.Props.C18_sum' depends on axioms: [propext, Classical.choice, Quot.sound]
'Godeep.Props.C18_avg' depends on axioms: [propext, Classical.choice, Quot.sound]
'Godeep.Props.C18_max' depends on axioms: [propext, Classical.choice, Quot.sound]
'Godeep.Props.C18_min' depends on axioms: [propext, Classical.choice, Quot.sound]
'Godeep.Props.C18_max_min_empty' depends on axioms: [propext, Classical.choice, Quot.sound]
'Godeep.Props.C18_max_min_extremal' depends on axioms: [propext, Classical.choice, Quot.sound]
'Godeep.Props.C18_dsum' depends on axioms: [propext, Classical.choice, Quot.sound]
'Godeep.Props.C18_davg' depends on axioms: [propext, Classical.choice, Quot.sound]
'Godeep.Props.C18_dmax' depends on axioms: [propext, Classical.choice, Quot.sound]
'Godeep.Props.C18_dmin' depends on axioms: [propext, Classical.choice, Quot.sound]
'Godeep.Props.C18_bad_dim' depends on axioms: [propext]
'Godeep.Props.C19_softMax' depends on axioms: [propext, Classical.choice, Quot.sound]
'Godeep.Props.C19_softMax_empty' depends on axioms: [propext, Classical.choice, Quot.sound]
'Godeep.Props.C19_softMax_normalises' depends on axioms: [propext, Classical.choice, Quot.sound]
'Godeep.Props.C20_context_fifo' depends on axioms: [propext, Classical.choice, Quot.sound]
'Godeep.Props.C20_context_append' depends on axioms: [propext, Classical.choice, Quot.sound]
'Godeep.Props.C21_exec_computes_value' depends on axioms: [propext, Classical.choice, Quot.sound]
'Godeep.Props.C21_build_and_exec' depends on axioms: [propext, Classical.choice, Quot.sound]
'Godeep.Props.C22_reexec' depends on axioms: [propext, Classical.choice, Quot.sound]
'Godeep.Props.C22_exec_twice' depends on axioms: [propext, Classical.choice, Quot.sound]
'Godeep.Props.C23_exec_frame' depends on axioms: [propext, Classical.choice, Quot.sound]
'Godeep.Props.C23_build_frame' depends on axioms: [propext, Classical.choice, Quot.sound]
'Godeep.Props.C24_rebuild_is_empty' depends on axioms: [propext]
'Godeep.Props.C24_built_once' depends on axioms: [propext, Classical.choice, Quot.sound]
'Godeep.Props.C24_not_recomputed' depends on axioms: [propext, Classical.choice, Quot.sound]
'Godeep.Props.C25_wellshaped_builds_partial' depends on axioms: [propext, Classical.choice, Quot.sound]
'Godeep.Props.C25_built_passed' depends on axioms: [propext, Classical.choice, Quot.sound]
'Godeep.Props.C25_exact_without_concat_partial' depends on axioms: [propext, Classical.choice, Quot.sound]
'Godeep.Props.C25_abort_cause' depends on axioms: [propext, Classical.choice, Quot.sound]
'Godeep.Props.C26_failed_build' depends on axioms: [propext, Classical.choice, Quot.sound]
'Godeep.Props.C27_graph_agrees_with_immediate' depends on axioms: [propext, Classical.choice, Quot.sound]
'Godeep.Props.C28_abort_iff' depends on axioms: [propext, Classical.choice, Quot.sound]
'Godeep.Props.C28_abort_cause' depends on axioms: [propext, Classical.choice, Quot.sound]
'Godeep.Props.C29_fill' depends on axioms: [propext, Classical.choice, Quot.sound]
'Godeep.Props.C29_transfer' depends on axioms: [propext, Classical.choice, Quot.sound]
'Godeep.Props.C29_transfer_sizes' depends on axioms: [propext, Quot.sound]
'Godeep.Props.C29_fillWith' depends on axioms: [propext, Classical.choice, Quot.sound]
'Godeep.Props.C29_copyTo' depends on axioms: [propext, Classical.choice, Quot.sound]
'Godeep.Props.C29_calls_example' depends on axioms: [propext, Classical.choice, Quot.sound]
'Godeep.Props.C30_graphs_are_lists' depends on axioms: [propext, Quot.sound]
'Godeep.Props.C30_copy_is_independent' depends on axioms: [propext, Quot.sound]
'Godeep.Props.C30_add_is_sequence' depends on axioms: [propext, Quot.sound]
'Godeep.Props.C31_views_share' depends on axioms: [propext, Classical.choice, Quot.sound]
'Godeep.Props.C31_write_view' depends on axioms: [propext, Classical.choice, Quot.sound]
'Godeep.Props.C32_save' depends on axioms: [propext, Classical.choice, Quot.sound]
'Godeep.Props.C32_load' depends on axioms: [propext, Classical.choice, Quot.sound]
'Godeep.Props.C32_reload' depends on axioms: [propext, Classical.choice, Quot.sound]
'Godeep.Props.C32_int' depends on axioms: [propext, Quot.sound]
'Godeep.Props.C33_saveFull_fails_partial' does not depend on any axioms
'Godeep.Props.C33_loadFull_fails_partial' does not depend on any axioms
'Godeep.Props.C33_no_round_trip' depends on axioms: [propext, Classical.choice, Quot.sound]
'Godeep.Props.C34_load_any' depends on axioms: [propext, Classical.choice, Quot.sound]
'Godeep.Props.C34_truncated' depends on axioms: [propext, Classical.choice, Quot.sound]
'Godeep.F16.C35_every_half' depends on axioms: [propext, Classical.choice, Quot.sound]
'Godeep.F16.C35_widen_exact' depends on axioms: [propext, Classical.choice, Quot.sound]
'Godeep.F16.C35_widen_special' depends on axioms: [propext, Classical.choice, Quot.sound]
'Godeep.F16.C35_round_trip' depends on axioms: [propext, Classical.choice, Quot.sound]
'Godeep.F16.C36_every_single' depends on axioms: [propext, Classical.choice, Quot.sound]
'Godeep.F16.C36_narrow_overflow' depends on axioms: [propext, Classical.choice, Quot.sound]
'Godeep.F16.C36_narrow_nearest' depends on axioms: [propext, Classical.choice, Quot.sound]
'Godeep.F16.C36_narrow_special' depends on axioms: [propext, Classical.choice, Quot.sound]
'Godeep.F16.C37_classification' depends on axioms: [propext, Classical.choice, Quot.sound]
'Godeep.F16.C37_partition' depends on axioms: [propext, Classical.choice, Quot.sound]
'Godeep.F16.C37_constants' depends on axioms: [propext, Classical.choice, Quot.sound]
'Godeep.F16.C37_narrow_nan' depends on axioms: [propext, Classical.choice, Quot.sound]
'Godeep.Props.C38_predict_dense' depends on axioms: [propext, Classical.choice, Quot.sound]
'Godeep.Props.C38_compile_on_demand' depends on axioms: [propext, Quot.sound]
'Godeep.Props.C38_predict_trained' depends on axioms: [propext, Classical.choice, Quot.sound]
'Godeep.Props.C39_predictions' depends on axioms: [propext, Classical.choice, Quot.sound]
'Godeep.Props.C40_shape_checked' depends on axioms: [propext, Classical.choice, Quot.sound]
'Godeep.Props.C41_train_one' depends on axioms: [propext, Classical.choice, Quot.sound]
'Godeep.Props.C41_rejected' depends on axioms: [propext, Classical.choice, Quot.sound]
'Godeep.Props.C41_first' depends on axioms: [propext, Classical.choice, Quot.sound]
'Godeep.Props.C42_train' depends on axioms: [propext, Classical.choice, Quot.sound]
'Godeep.Props.C42_no_leak' depends on axioms: [propext, Classical.choice, Quot.sound]
'Godeep.Props.C43_momentum_term_partial' depends on axioms: [propext]
'Godeep.Props.C43_momentum_no_effect' depends on axioms: [propext, Classical.choice, Quot.sound]
'Godeep.Props.C44_stops_at_concat' depends on axioms: [propext, Quot.sound]
'Godeep.Props.C44_marks' depends on axioms: [propext]
'Godeep.Props.C44_flag_stays' depends on axioms: [propext, Classical.choice, Quot.sound]
'Godeep.Props.C44_frozen_program' depends on axioms: [propext, Classical.choice, Quot.sound]
'Godeep.Props.C44_frozen_example' depends on axioms: [propext, Quot.sound]
'Godeep.Props.C44_first_layer_learns' depends on axioms: [propext, Quot.sound]
'Godeep.Props.C44_frozen_any' depends on axioms: [propext, Classical.choice, Quot.sound]
'Godeep.Props.C44_frozen' depends on axioms: [propext, Classical.choice, Quot.sound]
'Godeep.Props.C44_set_trainable' depends on axioms: [propext, Classical.choice, Quot.sound]
'Godeep.Props.C44_freeze_all' depends on axioms: [propext, Classical.choice, Quot.sound]
'Godeep.Props.C45_only_path' depends on axioms: [propext, Classical.choice, Quot.sound]
'Godeep.Props.C45_branches_not_trained' depends on axioms: [propext, Classical.choice, Quot.sound]
'Godeep.Props.C45_concat_last_panics' depends on axioms: [propext]
'Godeep.Props.C46_gradient' depends on axioms: [propext, Classical.choice, Quot.sound]
'Godeep.Props.C47_second_compile' depends on axioms: [propext, Classical.choice, Quot.sound]
'Godeep.Props.C47_compile_on_demand_once_partial' depends on axioms: [propext, Classical.choice, Quot.sound]
'Godeep.Props.C47_not_idempotent' depends on axioms: [propext, Classical.choice, Quot.sound]
'Godeep.Props.C48_programs' depends on axioms: [propext, Classical.choice, Quot.sound]
'Godeep.Props.C48_example' depends on axioms: [propext, Classical.choice, Quot.sound]
'Godeep.Props.C48_save' depends on axioms: [propext, Classical.choice, Quot.sound]
'Godeep.Props.C48_round_trip' depends on axioms: [propext, Classical.choice, Quot.sound]
'Godeep.Props.C48_sequential' depends on axioms: [propext, Classical.choice, Quot.sound]
'Godeep.Props.C48_same_predictions' depends on axioms: [propext, Classical.choice, Quot.sound]
'Godeep.Props.C48_just_compiled' depends on axioms: [propext, Classical.choice, Quot.sound]
'Godeep.Props.C49_sequential_partial' depends on axioms: [propext, Classical.choice, Quot.sound]
'Godeep.Props.C49_save_once' depends on axioms: [propext, Quot.sound]
'Godeep.Props.C49_concat_not_reset' depends on axioms: [propext, Quot.sound]
'Godeep.Props.C49_not_written_again' depends on axioms: [propext]
'Godeep.Props.C50_conv' depends on axioms: [propext, Classical.choice, Quot.sound]
'Godeep.Props.C51_maxPool' depends on axioms: [propext, Classical.choice, Quot.sound]
'Godeep.Props.C52_upSampling2D_partial' depends on axioms: [propext, Classical.choice, Quot.sound]
'Godeep.Props.C52_upSampling2Dxy_pools' does not depend on any axioms
'Godeep.Props.C53_deconv' depends on axioms: [propext, Classical.choice, Quot.sound]
'Godeep.Props.C54_norm_partial' depends on axioms: [propext, Classical.choice, Quot.sound]
'Godeep.Props.C54_norm_negative' depends on axioms: [propext, Classical.choice, Quot.sound]
'Godeep.Props.C54_eNorm_partial' depends on axioms: [propext, Classical.choice, Quot.sound]
'Godeep.Props.C54_eNorm_negative' depends on axioms: [propext, Classical.choice, Quot.sound]
'Godeep.Props.C55_linear' depends on axioms: [propext, Classical.choice, Quot.sound]
'Godeep.Props.C55_sigmoid' depends on axioms: [propext, Classical.choice, Quot.sound]
'Godeep.Props.C55_sin' depends on axioms: [propext, Classical.choice, Quot.sound]
'Godeep.Props.C55_swish' depends on axioms: [propext, Classical.choice, Quot.sound]
'Godeep.Props.C55_tanh' depends on axioms: [propext, Classical.choice, Quot.sound]
'Godeep.Props.C55_relu_partial' depends on axioms: [propext, Classical.choice, Quot.sound]
'Godeep.Props.C55_elu_partial' depends on axioms: [propext, Classical.choice, Quot.sound]
'Godeep.Props.C55_elu_wrong' depends on axioms: [propext, Classical.choice, Quot.sound]
'Godeep.Props.C55_gelu_partial' depends on axioms: [propext, Classical.choice, Quot.sound]
'Godeep.Props.C56_simpleScale_partial' depends on axioms: [propext, Classical.choice, Quot.sound]
'Godeep.Props.C56_simpleScale_same_size' depends on axioms: [propext, Classical.choice, Quot.sound]
'Godeep.Props.C56_simpleScale_not_floor' depends on axioms: [propext, Classical.choice, Quot.sound]
'Godeep.Props.C57_smoothScale_partial' depends on axioms: [propext, Classical.choice, Quot.sound]
'Godeep.Props.C57_smoothScale_fails' depends on axioms: [propext, Classical.choice, Quot.sound]
'Godeep.Props.C58_bar_length' depends on axioms: [propext, Classical.choice, Quot.sound]
'Godeep.Props.C58_bar_monotone' depends on axioms: [propext, Classical.choice, Quot.sound]
'Godeep.Props.C59_no_error_iff' depends on axioms: [propext, Classical.choice, Quot.sound]
'Godeep.Props.C59_rank' depends on axioms: [propext]
'Godeep.Props.C59_extent' depends on axioms: [propext, Classical.choice, Quot.sound]
'Godeep.Props.C60_save_short' depends on axioms: [propext, Classical.choice, Quot.sound]
'Godeep.Props.C61_predict_sequential' depends on axioms: [propext, Classical.choice, Quot.sound]
'Godeep.Props.C61_predict_safe' depends on axioms: [propext, Classical.choice, Quot.sound]
'Godeep.Props.C62_load_image_partial' depends on axioms: [propext, Classical.choice, Quot.sound]
'Godeep.Props.C62_load_image_reads' depends on axioms: [propext, Classical.choice, Quot.sound]
'Godeep.Props.C62_bounds_ignored' depends on axioms: [propext, Classical.choice, Quot.sound]
'Godeep.Props.C63_round_trip_float64' depends on axioms: [propext, Classical.choice, Quot.sound]
'Godeep.Props.C63_round_trip_float32' depends on axioms: [propext, Classical.choice, Quot.sound]
'Godeep.Props.C63_int_loses' depends on axioms: [propext, Classical.choice, Quot.sound]
'Godeep.Props.C64_toImg' depends on axioms: [propext, Quot.sound]
'Godeep.Props.C64_toImg_accepts' depends on axioms: [propext, Classical.choice, Quot.sound]
'Godeep.Props.C65_load_simple_scaled' depends on axioms: [propext, Classical.choice, Quot.sound]
'Godeep.Props.C65_load_smooth_scaled' depends on axioms: [propext, Classical.choice, Quot.sound]
'Godeep.Props.C65_load_smooth_same' depends on axioms: [propext, Classical.choice, Quot.sound]
'Godeep.Props.C65_edge_darkens' depends on axioms: [propext, Classical.choice, Quot.sound]
'Godeep.Props.C66_flatten_changes_training' depends on axioms: [propext, Quot.sound]
'Godeep.Props.C66_predictions_partial' depends on axioms: [propext, Classical.choice, Quot.sound]
'Godeep.Props.C67_trains_partial' depends on axioms: [propext, Classical.choice, Quot.sound]
'Godeep.Props.C67_conv_cannot_train' depends on axioms: [propext, Quot.sound]
'Godeep.Props.C68_train_one' depends on axioms: [propext, Classical.choice, Quot.sound]
'Godeep.Props.C68_rejected' depends on axioms: [propext, Classical.choice, Quot.sound]
'Godeep.Props.C68_first' depends on axioms: [propext, Classical.choice, Quot.sound]
'Godeep.Props.C68_train' depends on axioms: [propext, Classical.choice, Quot.sound]
'Godeep.Props.C68_predict_trained' depends on axioms: [propext, Classical.choice, Quot.sound]
'Godeep.Props.C69_gradient_partial' depends on axioms: [propext, Classical.choice, Quot.sound]
'Godeep.Props.C69_norm_moves' depends on axioms: [propext, Classical.choice, Quot.sound]
'Godeep.Props.C69_softMax_moves' depends on axioms: [propext, Classical.choice, Quot.sound]
'Godeep.Props.C69_flatten_halves' depends on axioms: [propext, Classical.choice, Quot.sound]
'Godeep.Props.C70_cross_entropy' depends on axioms: [propext, Classical.choice, Quot.sound]
'Godeep.Props.C71_descends' depends on axioms: [propext, Classical.choice, Quot.sound]
'Godeep.Props.C71_descends_entropy' depends on axioms: [propext, Classical.choice, Quot.sound]
'Godeep.Props.C72_used_before' depends on axioms: [propext, Quot.sound]
'Godeep.Props.C72_joined_partial' depends on axioms: [propext, Classical.choice, Quot.sound]
'Godeep.Props.C73_frozen_any' depends on axioms: [propext, Classical.choice, Quot.sound]
'Godeep.Props.C73_second_trains_first' depends on axioms: [propext, Quot.sound]
'Godeep.Props.C73_first_is_erased' depends on axioms: [propext, Quot.sound]
'Godeep.Props.C73_frozen_partial' depends on axioms: [propext, Classical.choice, Quot.sound]
'Godeep.Scal.C74_add' depends on axioms: [propext, Classical.choice, Quot.sound]
'Godeep.Scal.C74_sub' depends on axioms: [propext, Classical.choice, Quot.sound]
'Godeep.Scal.C74_mul' depends on axioms: [propext, Classical.choice, Quot.sound]
'Godeep.Scal.C74_div' depends on axioms: [propext, Classical.choice, Quot.sound]
'Godeep.Scal.C74_self' depends on axioms: [propext, Quot.sound]
'Godeep.Scal.C74_determined' depends on axioms: [propext, Classical.choice, Quot.sound]
'Godeep.Scal.C75_cmp_partial' depends on axioms: [propext, Classical.choice, Quot.sound]
'Godeep.Scal.C75_nan' depends on axioms: [propext, Classical.choice, Quot.sound]
'Godeep.Scal.C75_double_argument' depends on axioms: [propext, Classical.choice, Quot.sound]
'Godeep.Scal.C76_from_double' depends on axioms: [propext, Classical.choice, Quot.sound]
'Godeep.Scal.C76_mixed_sum' depends on axioms: [propext, Classical.choice, Quot.sound]
'Godeep.Scal.C76_exact_partial' depends on axioms: [propext, Classical.choice, Quot.sound]
'Godeep.Props.C77_predictions_kept' depends on axioms: [propext, Classical.choice, Quot.sound]
'Godeep.Props.C78_branched' depends on axioms: [propext, Classical.choice, Quot.sound]
'Godeep.Props.C79_newRand_float64' depends on axioms: [propext, Classical.choice, Quot.sound]
'Godeep.Props.C79_newRand_float32' depends on axioms: [propext, Classical.choice, Quot.sound]
'Godeep.Props.C79_newRand_int' depends on axioms: [propext, Classical.choice, Quot.sound]
'Godeep.Props.C79_newRand_reaches_max' depends on axioms: [propext, Classical.choice, Quot.sound]
'Godeep.Props.C80_lengths' depends on axioms: [propext, Quot.sound]
'Godeep.Props.C80_euclid' depends on axioms: [propext, Classical.choice, Quot.sound]
'Godeep.Props.C80_metric_partial' depends on axioms: [propext, Classical.choice, Quot.sound]
'Godeep.Props.C80_symmetric_float64' depends on axioms: [propext, Classical.choice, Quot.sound]
'Godeep.Props.C80_symmetric_float32' depends on axioms: [propext, Classical.choice, Quot.sound]
'Godeep.Props.C80_symmetric_int16' depends on axioms: [propext, Quot.sound]
'Godeep.Props.C80_zero_of_different' depends on axioms: [propext]
'Godeep.Props.C81_shapeStr' depends on axioms: [propext, Quot.sound]
'Godeep.Props.C81_matString' depends on axioms: [propext, Classical.choice, Quot.sound]
'Godeep.Props.C82_scalarRand_float64_partial' depends on axioms: [propext, Classical.choice, Quot.sound]
'Godeep.Props.C82_scalarRand_int_constant' depends on axioms: [propext, Classical.choice, Quot.sound]
'Godeep.Props.C82_scalarRand_float32_above' depends on axioms: [propext, Classical.choice, Quot.sound]
'Godeep.Props.C83_calls' depends on axioms: [propext, Classical.choice, Quot.sound]
'Godeep.Props.C84_flatten_data_partial' depends on axioms: [propext, Classical.choice, Quot.sound]
'Godeep.Props.C84_flatten_pending' depends on axioms: [propext, Classical.choice, Quot.sound]
'Godeep.Props.C85_string_partial' depends on axioms: [propext, Classical.choice, Quot.sound]
'Godeep.Props.C85_not_compiled' depends on axioms: [propext, Classical.choice, Quot.sound]
'Godeep.Props.C85_string_branched' depends on axioms: [propext, Classical.choice, Quot.sound]
'Godeep.Props.C85_repeated' depends on axioms: [propext, Classical.choice, Quot.sound]
'Godeep.Props.C85_determines' depends on axioms: [propext, Classical.choice, Quot.sound]
'Godeep.Props.C86_blocks_partial' depends on axioms: [propext, Classical.choice, Quot.sound]
'Godeep.Props.C86_predict' depends on axioms: [propext, Classical.choice, Quot.sound]
'Godeep.Props.C86_frozen_exactly' depends on axioms: [propext, Classical.choice, Quot.sound]
'Godeep.Props.C86_first_not_frozen' depends on axioms: [propext, Quot.sound]
'Godeep.Props.C87_inputs_partial' depends on axioms: [propext, Classical.choice, Quot.sound]
'Godeep.Props.C87_trains_half' depends on axioms: [propext, Quot.sound]
'Godeep.Props.C88_weights_stay' depends on axioms: [propext, Classical.choice, Quot.sound]
'Godeep.Props.C88_history' depends on axioms: [propext, Classical.choice, Quot.sound]
'Godeep.Props.C88_frozen' depends on axioms: [propext, Classical.choice, Quot.sound]
'Godeep.Props.C88_others' depends on axioms: [propext, Classical.choice, Quot.sound]
'Godeep.Props.C88_example' depends on axioms: [propext, Quot.sound]
'Godeep.Props.C89_separate' depends on axioms: [propext, Classical.choice, Quot.sound]
'Godeep.Props.C89_inside' depends on axioms: [propext, Classical.choice, Quot.sound]
'Godeep.Props.C89_elements' depends on axioms: [propext, Classical.choice, Quot.sound]
'Godeep.Props.C90_kept' depends on axioms: [propext, Classical.choice, Quot.sound]
'Godeep.Props.C90_example' depends on axioms: [propext, Classical.choice, Quot.sound]
'Godeep.Props.C90_now_example' depends on axioms: [propext, Classical.choice, Quot.sound]
'Godeep.Props.C91_unchanged' depends on axioms: [propext, Classical.choice, Quot.sound]
'Godeep.Props.C91_predict' depends on axioms: [propext, Classical.choice, Quot.sound]
'Godeep.Props.C91_trainOne' depends on axioms: [propext, Classical.choice, Quot.sound]
'Godeep.Props.C91_train' depends on axioms: [propext, Classical.choice, Quot.sound]
'Godeep.Props.C91_example' depends on axioms: [propext, Quot.sound]
'Godeep.Props.C91_one_program' depends on axioms: [propext]
'Godeep.Props.C92_initial_weights' depends on axioms: [propext, Classical.choice, Quot.sound]
'Godeep.Props.C92_untrained' depends on axioms: [propext, Classical.choice, Quot.sound]
'Godeep.Props.C92_apart' depends on axioms: [propext, Classical.choice, Quot.sound]
'Godeep.Props.C92_example' depends on axioms: [propext, Quot.sound]
'Godeep.Props.C93_rate_zero' depends on axioms: [propext, Classical.choice, Quot.sound]
'Godeep.Props.C93_example' depends on axioms: [propext, Classical.choice, Quot.sound]
'Godeep.Props.C94_structure_stays' depends on axioms: [propext, Classical.choice, Quot.sound]
'Godeep.Props.C94_kinds_stay' depends on axioms: [propext, Classical.choice, Quot.sound]
'Godeep.Props.C94_history' depends on axioms: [propext, Classical.choice, Quot.sound]
'Godeep.Props.C94_example' depends on axioms: [propext, Quot.sound]
'Godeep.Props.C95_shape_stays' depends on axioms: [propext, Classical.choice, Quot.sound]
'Godeep.Props.C95_numbers' depends on axioms: [propext, Classical.choice, Quot.sound]
'Godeep.Props.C95_example' depends on axioms: [propext, Quot.sound]
