{
 "claims": [
  {
   "property": "C01",
   "status": "proved",
   "theorems": [
    "Godeep.Props.C01_index_offset_index",
    "Godeep.Props.C01_offset_index_offset",
    "Godeep.Props.C01_size_is_product"
   ],
   "note": ""
  },
  {
   "property": "C02",
   "status": "proved",
   "theorems": [
    "Godeep.Props.C02_valid_index",
    "Godeep.Props.C02_wrong_rank",
    "Godeep.Props.C02_out_of_range",
    "Godeep.Props.C02_success_iff"
   ],
   "note": ""
  },
  {
   "property": "C03",
   "status": "proved",
   "theorems": [
    "Godeep.Props.C03_enumeration",
    "Godeep.Props.C03_allIdx_lexicographic",
    "Godeep.Props.C03_offset_monotone"
   ],
   "note": ""
  },
  {
   "property": "C04",
   "status": "proved",
   "theorems": [
    "Godeep.Props.C04_wraps",
    "Godeep.Props.C04_agrees_when_it_fits",
    "Godeep.Props.C04_overflow",
    "Godeep.Props.C04_overflow_collision"
   ],
   "note": ""
  },
  {
   "property": "C05",
   "status": "proved",
   "theorems": [
    "Godeep.Props.C05_newZeros",
    "Godeep.Props.C05_newOnes",
    "Godeep.Props.C05_newRand",
    "Godeep.Props.C05_newFromValues"
   ],
   "note": ""
  },
  {
   "property": "C06",
   "status": "proved",
   "theorems": [
    "Godeep.Props.C06_set_get",
    "Godeep.Props.C06_set_updates_one",
    "Godeep.Props.C06_set_error"
   ],
   "note": ""
  },
  {
   "property": "C07",
   "status": "proved",
   "theorems": [
    "Godeep.Props.C07_copy",
    "Godeep.Props.C07_copy_independent"
   ],
   "note": ""
  },
  {
   "property": "C08",
   "status": "proved",
   "theorems": [
    "Godeep.Props.C08_loadData",
    "Godeep.Props.C08_loadData_error",
    "Godeep.Props.C08_getData",
    "Godeep.Props.C08_loadFromTensor",
    "Godeep.Props.C08_loadFromTensor_error"
   ],
   "note": ""
  },
  {
   "property": "C09",
   "status": "proved",
   "theorems": [
    "Godeep.Props.C09_bind_cells",
    "Godeep.Props.C09_bind_shared"
   ],
   "note": ""
  },
  {
   "property": "C10",
   "status": "proved",
   "theorems": [
    "Godeep.Props.C10_add",
    "Godeep.Props.C10_sub",
    "Godeep.Props.C10_mul",
    "Godeep.Props.C10_div",
    "Godeep.Props.C10_div_panics",
    "Godeep.Props.C10_shape_error"
   ],
   "note": ""
  },
  {
   "property": "C11",
   "status": "proved",
   "theorems": [
    "Godeep.Props.C11_neg",
    "Godeep.Props.C11_abs",
    "Godeep.Props.C11_activate",
    "Godeep.Props.C11_addScalar",
    "Godeep.Props.C11_subScalar",
    "Godeep.Props.C11_mulScalar",
    "Godeep.Props.C11_divScalar",
    "Godeep.Props.C11_divScalar_panics"
   ],
   "note": ""
  },
  {
   "property": "C12",
   "status": "proved",
   "theorems": [
    "Godeep.Props.C12_transpose",
    "Godeep.Props.C12_transpose_involutive"
   ],
   "note": ""
  },
  {
   "property": "C13",
   "status": "proved",
   "theorems": [
    "Godeep.Props.C13_subTensor",
    "Godeep.Props.C13_subTensor_error"
   ],
   "note": ""
  },
  {
   "property": "C14",
   "status": "partial",
   "theorems": [
    "Godeep.Props.C14_foSubTensor_partial",
    "Godeep.Props.C14_foSubTensor_boundary_fails",
    "Godeep.Props.C14_not_padded"
   ],
   "note": "The full padding claim is false of the code: a range containing the position equal to the extent fails (C14_foSubTensor_boundary_fails, C14_not_padded). Proved for all other ranges."
  },
  {
   "property": "C15",
   "status": "partial",
   "theorems": [
    "Godeep.Props.C15_concat_partial",
    "Godeep.Props.C15_concat_not_validated"
   ],
   "note": "Holds when the shapes agree outside the concatenated dimension; other shapes are not rejected by the immediate version (C15_concat_not_validated)."
  },
  {
   "property": "C16",
   "status": "partial",
   "theorems": [
    "Godeep.Props.C16_reshape_partial",
    "Godeep.Props.C16_reshape_smaller_panics",
    "Godeep.Props.C16_reshape_larger_nil"
   ],
   "note": "Immediate version is right when the element count is unchanged; it aborts or leaves nil elements otherwise (both proved)."
  },
  {
   "property": "C17",
   "status": "proved",
   "theorems": [
    "Godeep.Props.C17_dotAt",
    "Godeep.Props.C17_dotAt_vectors",
    "Godeep.Props.C17_dotAt_rank_zero",
    "Godeep.Props.C17_dotAt_extent",
    "Godeep.Props.C17_dotAt_bad_dim_panics",
    "Godeep.Props.C17_dot",
    "Godeep.Props.C17_dot_matrices"
   ],
   "note": ""
  },
  {
   "property": "C18",
   "status": "proved",
   "theorems": [
    "Godeep.Props.C18_sum",
    "Godeep.Props.C18_avg",
    "Godeep.Props.C18_max",
    "Godeep.Props.C18_min",
    "Godeep.Props.C18_max_min_empty",
    "Godeep.Props.C18_max_min_extremal",
    "Godeep.Props.C18_dsum",
    "Godeep.Props.C18_davg",
    "Godeep.Props.C18_dmax",
    "Godeep.Props.C18_dmin",
    "Godeep.Props.C18_bad_dim"
   ],
   "note": ""
  },
  {
   "property": "C19",
   "status": "proved",
   "theorems": [
    "Godeep.Props.C19_softMax",
    "Godeep.Props.C19_softMax_empty",
    "Godeep.Props.C19_softMax_normalises"
   ],
   "note": ""
  },
  {
   "property": "C20",
   "status": "proved",
   "theorems": [
    "Godeep.Props.C20_context_fifo",
    "Godeep.Props.C20_context_append"
   ],
   "note": ""
  },
  {
   "property": "C21",
   "status": "proved",
   "theorems": [
    "Godeep.Props.C21_exec_computes_value",
    "Godeep.Props.C21_build_and_exec"
   ],
   "note": ""
  },
  {
   "property": "C22",
   "status": "proved",
   "theorems": [
    "Godeep.Props.C22_reexec",
    "Godeep.Props.C22_exec_twice"
   ],
   "note": ""
  },
  {
   "property": "C23",
   "status": "proved",
   "theorems": [
    "Godeep.Props.C23_exec_frame",
    "Godeep.Props.C23_build_frame"
   ],
   "note": ""
  },
  {
   "property": "C24",
   "status": "proved",
   "theorems": [
    "Godeep.Props.C24_rebuild_is_empty",
    "Godeep.Props.C24_built_once",
    "Godeep.Props.C24_not_recomputed"
   ],
   "note": ""
  },
  {
   "property": "C25",
   "status": "partial",
   "theorems": [
    "Godeep.Props.C25_wellshaped_builds_partial",
    "Godeep.Props.C25_built_passed",
    "Godeep.Props.C25_exact_without_concat_partial",
    "Godeep.Props.C25_abort_cause"
   ],
   "note": "The full claim is false of the code (examples beside the theorems): a padded window across the end of its source is rejected, Concat accepts some shapes that do not fit, and dimensions out of range abort. Proved: well-shaped expressions build; exact condition for expressions without Concat; what every successful build has checked; the only causes of an abort."
  },
  {
   "property": "C26",
   "status": "proved",
   "theorems": [
    "Godeep.Props.C26_failed_build"
   ],
   "note": ""
  },
  {
   "property": "C27",
   "status": "proved",
   "theorems": [
    "Godeep.Props.C27_graph_agrees_with_immediate"
   ],
   "note": ""
  },
  {
   "property": "C28",
   "status": "proved",
   "theorems": [
    "Godeep.Props.C28_abort_iff",
    "Godeep.Props.C28_abort_cause"
   ],
   "note": ""
  },
  {
   "property": "C29",
   "status": "proved",
   "theorems": [
    "Godeep.Props.C29_fill",
    "Godeep.Props.C29_transfer",
    "Godeep.Props.C29_transfer_sizes",
    "Godeep.Props.C29_fillWith",
    "Godeep.Props.C29_copyTo",
    "Godeep.Props.C29_calls_example"
   ],
   "note": ""
  },
  {
   "property": "C30",
   "status": "proved",
   "theorems": [
    "Godeep.Props.C30_graphs_are_lists",
    "Godeep.Props.C30_copy_is_independent",
    "Godeep.Props.C30_add_is_sequence"
   ],
   "note": ""
  },
  {
   "property": "C31",
   "status": "proved",
   "theorems": [
    "Godeep.Props.C31_views_share",
    "Godeep.Props.C31_write_view"
   ],
   "note": ""
  },
  {
   "property": "C32",
   "status": "proved",
   "theorems": [
    "Godeep.Props.C32_save",
    "Godeep.Props.C32_load",
    "Godeep.Props.C32_reload",
    "Godeep.Props.C32_int"
   ],
   "note": ""
  },
  {
   "property": "C33",
   "status": "partial",
   "theorems": [
    "Godeep.Props.C33_saveFull_fails_partial",
    "Godeep.Props.C33_loadFull_fails_partial",
    "Godeep.Props.C33_no_round_trip"
   ],
   "note": "The claim is false of the code: SaveFull and LoadFull always fail because encoding/binary refuses int and uint (C33_no_round_trip). Proved: neither writes, reads or changes anything."
  },
  {
   "property": "C34",
   "status": "proved",
   "theorems": [
    "Godeep.Props.C34_load_any",
    "Godeep.Props.C34_truncated"
   ],
   "note": ""
  },
  {
   "property": "C35",
   "status": "proved",
   "theorems": [
    "Godeep.F16.C35_every_half",
    "Godeep.F16.C35_widen_exact",
    "Godeep.F16.C35_widen_special",
    "Godeep.F16.C35_round_trip"
   ],
   "note": ""
  },
  {
   "property": "C36",
   "status": "proved",
   "theorems": [
    "Godeep.F16.C36_every_single",
    "Godeep.F16.C36_narrow_overflow",
    "Godeep.F16.C36_narrow_nearest",
    "Godeep.F16.C36_narrow_special"
   ],
   "note": ""
  },
  {
   "property": "C37",
   "status": "proved",
   "theorems": [
    "Godeep.F16.C37_classification",
    "Godeep.F16.C37_partition",
    "Godeep.F16.C37_constants",
    "Godeep.F16.C37_narrow_nan"
   ],
   "note": ""
  },
  {
   "property": "C38",
   "status": "proved",
   "theorems": [
    "Godeep.Props.C38_predict_dense",
    "Godeep.Props.C38_compile_on_demand",
    "Godeep.Props.C38_predict_trained"
   ],
   "note": ""
  },
  {
   "property": "C39",
   "status": "proved",
   "theorems": [
    "Godeep.Props.C39_predictions"
   ],
   "note": ""
  },
  {
   "property": "C40",
   "status": "proved",
   "theorems": [
    "Godeep.Props.C40_shape_checked"
   ],
   "note": ""
  },
  {
   "property": "C41",
   "status": "proved",
   "theorems": [
    "Godeep.Props.C41_train_one",
    "Godeep.Props.C41_rejected",
    "Godeep.Props.C41_first"
   ],
   "note": "For sequential models of dense layers, in every state a program can reach by using and training the model, also when the graphs are made on demand. The momentum term is 0*momentum, because the momentum tensors are never written (see C43). Samples of wrong shapes are rejected without effect (C41_rejected)."
  },
  {
   "property": "C42",
   "status": "proved",
   "theorems": [
    "Godeep.Props.C42_train",
    "Godeep.Props.C42_no_leak"
   ],
   "note": ""
  },
  {
   "property": "C43",
   "status": "partial",
   "theorems": [
    "Godeep.Props.C43_momentum_term_partial",
    "Godeep.Props.C43_momentum_no_effect"
   ],
   "note": "The claim is false of the code: momentum enters only as 0*momentum (C43_momentum_term_partial), so a step has the same effect with any two momentums (C43_momentum_no_effect)."
  },
  {
   "property": "C44",
   "status": "partial",
   "theorems": [
    "Godeep.Props.C44_stops_at_concat",
    "Godeep.Props.C44_marks",
    "Godeep.Props.C44_flag_stays",
    "Godeep.Props.C44_frozen_program",
    "Godeep.Props.C44_frozen_example",
    "Godeep.Props.C44_first_layer_learns",
    "Godeep.Props.C44_frozen_any",
    "Godeep.Props.C44_frozen",
    "Godeep.Props.C44_set_trainable",
    "Godeep.Props.C44_freeze_all"
   ],
   "note": "Frozen layers keep their weights through any training of sequential models (dense: C44_frozen; layers of any kind, with square kernels: C44_frozen_any), and SetTrainable marks all layers of sequential models of any layers. In all programs: after SetTrainable(false) of a model the layers after its first keep weights and biases until SetTrainable(true) or Load (C44_frozen_program). SetTrainable leaves out the first layer of a model, also a dense one (C44_first_layer_learns). For models with Concat layers SetTrainable does not reach the layers that feed the Concat (C44_stops_at_concat)."
  },
  {
   "property": "C45",
   "status": "partial",
   "theorems": [
    "Godeep.Props.C45_only_path",
    "Godeep.Props.C45_branches_not_trained",
    "Godeep.Props.C45_concat_last_panics"
   ],
   "note": "The claim is false of the code (C45_branches_not_trained, C45_concat_last_panics). Proved for models of any structure: training changes only weights of layers on the previous-layer path of the last layer, which ends at a Concat (C45_only_path). Models without Concat: C41."
  },
  {
   "property": "C46",
   "status": "proved",
   "theorems": [
    "Godeep.Props.C46_gradient"
   ],
   "note": ""
  },
  {
   "property": "C47",
   "status": "partial",
   "theorems": [
    "Godeep.Props.C47_second_compile",
    "Godeep.Props.C47_compile_on_demand_once_partial",
    "Godeep.Props.C47_not_idempotent"
   ],
   "note": "The claim is false of the code: a second Compile leaves an empty graph, so predictions no longer depend on the weights (C47_second_compile, C47_not_idempotent). Proved: the calls that compile on demand compile once."
  },
  {
   "property": "C48",
   "status": "proved",
   "theorems": [
    "Godeep.Props.C48_programs",
    "Godeep.Props.C48_example",
    "Godeep.Props.C48_save",
    "Godeep.Props.C48_round_trip",
    "Godeep.Props.C48_sequential",
    "Godeep.Props.C48_same_predictions",
    "Godeep.Props.C48_just_compiled"
   ],
   "note": ""
  },
  {
   "property": "C49",
   "status": "partial",
   "theorems": [
    "Godeep.Props.C49_sequential_partial",
    "Godeep.Props.C49_save_once",
    "Godeep.Props.C49_concat_not_reset",
    "Godeep.Props.C49_not_written_again"
   ],
   "note": "Proved for sequential models in any state (C49_sequential_partial). The full claim is false of the code: ResetSave does not go through Concat layers, so branches are never written again (C49_concat_not_reset, C49_not_written_again); without ResetSave a second Save writes nothing (C49_save_once)."
  },
  {
   "property": "C50",
   "status": "proved",
   "theorems": [
    "Godeep.Props.C50_conv"
   ],
   "note": ""
  },
  {
   "property": "C51",
   "status": "proved",
   "theorems": [
    "Godeep.Props.C51_maxPool"
   ],
   "note": ""
  },
  {
   "property": "C52",
   "status": "partial",
   "theorems": [
    "Godeep.Props.C52_upSampling2D_partial",
    "Godeep.Props.C52_upSampling2Dxy_pools"
   ],
   "note": "Proved for the layers NewUpSampling2D makes (equal factors). NewUpSampling2Dxy makes a max-pooling layer instead (C52_upSampling2Dxy_pools)."
  },
  {
   "property": "C53",
   "status": "proved",
   "theorems": [
    "Godeep.Props.C53_deconv"
   ],
   "note": ""
  },
  {
   "property": "C54",
   "status": "partial",
   "theorems": [
    "Godeep.Props.C54_norm_partial",
    "Godeep.Props.C54_norm_negative",
    "Godeep.Props.C54_eNorm_partial",
    "Godeep.Props.C54_eNorm_negative"
   ],
   "note": "The claim is false of the code: every negative element is mapped below the stated range (C54_norm_negative, C54_eNorm_negative). Proved: the ranges are [-1,1] and [-3,1], and the stated ones for non-negative elements."
  },
  {
   "property": "C55",
   "status": "partial",
   "theorems": [
    "Godeep.Props.C55_linear",
    "Godeep.Props.C55_sigmoid",
    "Godeep.Props.C55_sin",
    "Godeep.Props.C55_swish",
    "Godeep.Props.C55_tanh",
    "Godeep.Props.C55_relu_partial",
    "Godeep.Props.C55_elu_partial",
    "Godeep.Props.C55_elu_wrong",
    "Godeep.Props.C55_gelu_partial"
   ],
   "note": "Proved for Linear, Sigmoid, Tanh, Sin, Swish everywhere and for Relu away from its kink. ELU and SELU are wrong for positive arguments (C55_elu_wrong); GELU uses a difference quotient, shown to be the derivative at a point less than 1e-6 away."
  },
  {
   "property": "C56",
   "status": "partial",
   "theorems": [
    "Godeep.Props.C56_simpleScale_partial",
    "Godeep.Props.C56_simpleScale_same_size",
    "Godeep.Props.C56_simpleScale_not_floor"
   ],
   "note": "Never fails and same-size scaling is a copy (proved, with 53-bit rounding). The exact floor claim is false of the code: rounding can select the pixel before a whole coordinate (C56_simpleScale_not_floor); proved that this is the only deviation."
  },
  {
   "property": "C57",
   "status": "partial",
   "theorems": [
    "Godeep.Props.C57_smoothScale_partial",
    "Godeep.Props.C57_smoothScale_fails"
   ],
   "note": "The claim is false of the code: any target that is not strictly smaller in both directions returns an error (C57_smoothScale_fails). Proved for strictly smaller targets."
  },
  {
   "property": "C58",
   "status": "proved",
   "theorems": [
    "Godeep.Props.C58_bar_length",
    "Godeep.Props.C58_bar_monotone"
   ],
   "note": ""
  },
  {
   "property": "C59",
   "status": "proved",
   "theorems": [
    "Godeep.Props.C59_no_error_iff",
    "Godeep.Props.C59_rank",
    "Godeep.Props.C59_extent"
   ],
   "note": ""
  },
  {
   "property": "C60",
   "status": "proved",
   "theorems": [
    "Godeep.Props.C60_save_short"
   ],
   "note": ""
  },
  {
   "property": "C61",
   "status": "proved",
   "theorems": [
    "Godeep.Props.C61_predict_sequential",
    "Godeep.Props.C61_predict_safe"
   ],
   "note": ""
  },
  {
   "property": "C62",
   "status": "partial",
   "theorems": [
    "Godeep.Props.C62_load_image_partial",
    "Godeep.Props.C62_load_image_reads",
    "Godeep.Props.C62_bounds_ignored"
   ],
   "note": "False of the code for images whose bounds do not start at (0, 0): LoadImage asks for the colours from (0, 0) on (C62_bounds_ignored). Proved for all other images; C62_load_image_reads says what is read in general."
  },
  {
   "property": "C63",
   "status": "proved",
   "theorems": [
    "Godeep.Props.C63_round_trip_float64",
    "Godeep.Props.C63_round_trip_float32",
    "Godeep.Props.C63_int_loses"
   ],
   "note": "float64 and float32. C63_int_loses: what happens with integer elements."
  },
  {
   "property": "C64",
   "status": "proved",
   "theorems": [
    "Godeep.Props.C64_toImg",
    "Godeep.Props.C64_toImg_accepts"
   ],
   "note": ""
  },
  {
   "property": "C65",
   "status": "proved",
   "theorems": [
    "Godeep.Props.C65_load_simple_scaled",
    "Godeep.Props.C65_load_smooth_scaled",
    "Godeep.Props.C65_load_smooth_same",
    "Godeep.Props.C65_edge_darkens"
   ],
   "note": "Positions and interpolation are stated with error bounds. C65_edge_darkens: neighbours outside the image count as 0."
  },
  {
   "property": "C66",
   "status": "partial",
   "theorems": [
    "Godeep.Props.C66_flatten_changes_training",
    "Godeep.Props.C66_predictions_partial"
   ],
   "note": "The claim about training is false of the code: a Flatten layer halves the steps of the dense layer before it (C66_flatten_changes_training). Proved: predictions do not change (C66_predictions_partial); what a Flatten layer does to the steps of the layers before it is part of C69_gradient_partial."
  },
  {
   "property": "C67",
   "status": "partial",
   "theorems": [
    "Godeep.Props.C67_trains_partial",
    "Godeep.Props.C67_conv_cannot_train"
   ],
   "note": "The claim is false of the code: some convolutions with unequal kernel sides or strides cannot be trained (C67_conv_cannot_train). Proved (C67_trains_partial): all sequential models whose convolutions have square kernels and equal strides can be trained, if no layer can abort."
  },
  {
   "property": "C68",
   "status": "proved",
   "theorems": [
    "Godeep.Props.C68_train_one",
    "Godeep.Props.C68_rejected",
    "Godeep.Props.C68_first",
    "Godeep.Props.C68_train",
    "Godeep.Props.C68_predict_trained"
   ],
   "note": "For layers of all kinds, with square kernels and equal strides in convolutions (for others see C67). Flatten layers with integer element types are not covered."
  },
  {
   "property": "C69",
   "status": "partial",
   "theorems": [
    "Godeep.Props.C69_gradient_partial",
    "Godeep.Props.C69_norm_moves",
    "Godeep.Props.C69_softMax_moves",
    "Godeep.Props.C69_flatten_halves"
   ],
   "note": "False of the code for Norm and SoftMax layers, where weights move although the gradient is zero (C69_norm_moves, C69_softMax_moves), and for Flatten layers, which make steps smaller by a constant factor (C69_flatten_halves). Proved for layers of all other kinds, and with Flatten with the exact factor (C69_gradient_partial). Convolutions with square kernels and equal strides."
  },
  {
   "property": "C70",
   "status": "proved",
   "theorems": [
    "Godeep.Props.C70_cross_entropy"
   ],
   "note": "Over the real numbers; convolutions with square kernels and equal strides."
  },
  {
   "property": "C71",
   "status": "proved",
   "theorems": [
    "Godeep.Props.C71_descends",
    "Godeep.Props.C71_descends_entropy"
   ],
   "note": "Over the real numbers; convolutions with square kernels and equal strides. The layers before the first one with weights that learns can be of any kind."
  },
  {
   "property": "C72",
   "status": "partial",
   "theorems": [
    "Godeep.Props.C72_used_before",
    "Godeep.Props.C72_joined_partial"
   ],
   "note": "Proved for all sequential models that have not been compiled before, of layers of any kinds that fit together, for all weights and inputs, after any number of predictions (C72_joined_partial): if FromModels returns, the joined model computes the composition. Missing: parts other than the first that have only an input layer; training. False of the code when a model other than the first has been compiled before FromModels, for example by a prediction: the joined model ignores its input (C72_used_before)."
  },
  {
   "property": "C73",
   "status": "partial",
   "theorems": [
    "Godeep.Props.C73_frozen_any",
    "Godeep.Props.C73_second_trains_first",
    "Godeep.Props.C73_first_is_erased",
    "Godeep.Props.C73_frozen_partial"
   ],
   "note": "False of the code: training the second model also changes the weights of the first (C73_second_trains_first), and a first training step of the first model replaces its weights by zeros (C73_first_is_erased). Proved for all programs: after SetTrainable(false) of one of the joined models no training changes its layers after the first (C73_frozen_any; on the same models as the counterexamples: C73_frozen_partial)."
  },
  {
   "property": "C74",
   "status": "proved",
   "theorems": [
    "Godeep.Scal.C74_add",
    "Godeep.Scal.C74_sub",
    "Godeep.Scal.C74_mul",
    "Godeep.Scal.C74_div",
    "Godeep.Scal.C74_self",
    "Godeep.Scal.C74_determined"
   ],
   "note": "For every machine whose float32 operations return a nearest float32 (a consequence of IEEE 754). The sign of a zero result of an exact zero is not specified. Operands that are infinite or NaN are not covered."
  },
  {
   "property": "C75",
   "status": "partial",
   "theorems": [
    "Godeep.Scal.C75_cmp_partial",
    "Godeep.Scal.C75_nan",
    "Godeep.Scal.C75_double_argument"
   ],
   "note": "False of the code when the receiver is of half or single precision and the argument is a double: C75_double_argument. A half-precision NaN compares equal to everything (C75_nan)."
  },
  {
   "property": "C76",
   "status": "partial",
   "theorems": [
    "Godeep.Scal.C76_from_double",
    "Godeep.Scal.C76_mixed_sum",
    "Godeep.Scal.C76_exact_partial"
   ],
   "note": "False of the code: two roundings (C76_from_double, C76_mixed_sum). Proved for doubles that are exactly float32 numbers."
  },
  {
   "property": "C77",
   "status": "proved",
   "theorems": [
    "Godeep.Props.C77_predictions_kept"
   ],
   "note": ""
  },
  {
   "property": "C78",
   "status": "proved",
   "theorems": [
    "Godeep.Props.C78_branched"
   ],
   "note": ""
  },
  {
   "property": "C79",
   "status": "proved",
   "theorems": [
    "Godeep.Props.C79_newRand_float64",
    "Godeep.Props.C79_newRand_float32",
    "Godeep.Props.C79_newRand_int",
    "Godeep.Props.C79_newRand_reaches_max"
   ],
   "note": "For float64, float32 and integer elements; overflow, subnormal numbers and fused multiply-add are not modelled."
  },
  {
   "property": "C80",
   "status": "partial",
   "theorems": [
    "Godeep.Props.C80_lengths",
    "Godeep.Props.C80_euclid",
    "Godeep.Props.C80_metric_partial",
    "Godeep.Props.C80_symmetric_float64",
    "Godeep.Props.C80_symmetric_float32",
    "Godeep.Props.C80_symmetric_int16",
    "Godeep.Props.C80_zero_of_different"
   ],
   "note": "Proved in exact arithmetic; errors and symmetry for every element type. False with wrap-around: different int16 slices can have distance 0 (C80_zero_of_different)."
  },
  {
   "property": "C81",
   "status": "proved",
   "theorems": [
    "Godeep.Props.C81_shapeStr",
    "Godeep.Props.C81_matString"
   ],
   "note": ""
  },
  {
   "property": "C82",
   "status": "partial",
   "theorems": [
    "Godeep.Props.C82_scalarRand_float64_partial",
    "Godeep.Props.C82_scalarRand_int_constant",
    "Godeep.Props.C82_scalarRand_float32_above"
   ],
   "note": "Proved for float64. False for float32 (C82_scalarRand_float32_above) and for integers, where the result is always min (C82_scalarRand_int_constant)."
  },
  {
   "property": "C83",
   "status": "proved",
   "theorems": [
    "Godeep.Props.C83_calls"
   ],
   "note": ""
  },
  {
   "property": "C84",
   "status": "partial",
   "theorems": [
    "Godeep.Props.C84_flatten_data_partial",
    "Godeep.Props.C84_flatten_pending"
   ],
   "note": "Proved for data tensors. False of the code for tensors that no graph has evaluated yet: the result is empty (C84_flatten_pending)."
  },
  {
   "property": "C85",
   "status": "partial",
   "theorems": [
    "Godeep.Props.C85_string_partial",
    "Godeep.Props.C85_not_compiled",
    "Godeep.Props.C85_string_branched",
    "Godeep.Props.C85_repeated",
    "Godeep.Props.C85_determines"
   ],
   "note": "Proved for compiled sequential models in any later state. False of the code for models with branches, where shared layers are repeated (C85_repeated; the exact text is C85_string_branched), and for models that are not compiled, where String panics (C85_not_compiled)."
  },
  {
   "property": "C86",
   "status": "partial",
   "theorems": [
    "Godeep.Props.C86_blocks_partial",
    "Godeep.Props.C86_predict",
    "Godeep.Props.C86_frozen_exactly",
    "Godeep.Props.C86_first_not_frozen"
   ],
   "note": "Proved for all methods but SetTrainable, of which it is false (C86_first_not_frozen; what it does exactly is C86_frozen_exactly)."
  },
  {
   "property": "C87",
   "status": "partial",
   "theorems": [
    "Godeep.Props.C87_inputs_partial",
    "Godeep.Props.C87_trains_half"
   ],
   "note": "Proved for Compile and Predict; false of training (C87_trains_half)."
  },
  {
   "property": "C88",
   "status": "proved",
   "theorems": [
    "Godeep.Props.C88_weights_stay",
    "Godeep.Props.C88_history",
    "Godeep.Props.C88_frozen",
    "Godeep.Props.C88_others",
    "Godeep.Props.C88_example"
   ],
   "note": "All calls of the alphabet in Spec/Program.lean; models used as layers, and FillWith, CopyTo and Bind are not in it."
  },
  {
   "property": "C89",
   "status": "proved",
   "theorems": [
    "Godeep.Props.C89_separate",
    "Godeep.Props.C89_inside",
    "Godeep.Props.C89_elements"
   ],
   "note": "All states reached with the alphabet in Spec/Program.lean."
  },
  {
   "property": "C90",
   "status": "proved",
   "theorems": [
    "Godeep.Props.C90_kept",
    "Godeep.Props.C90_example",
    "Godeep.Props.C90_now_example"
   ],
   "note": "All histories of calls of the alphabet in Spec/Program.lean."
  },
  {
   "property": "C91",
   "status": "proved",
   "theorems": [
    "Godeep.Props.C91_unchanged",
    "Godeep.Props.C91_predict",
    "Godeep.Props.C91_trainOne",
    "Godeep.Props.C91_train",
    "Godeep.Props.C91_example",
    "Godeep.Props.C91_one_program"
   ],
   "note": "Predictions and training of compiled models; for training, if it does not panic in the state before."
  },
  {
   "property": "C92",
   "status": "proved",
   "theorems": [
    "Godeep.Props.C92_initial_weights",
    "Godeep.Props.C92_untrained",
    "Godeep.Props.C92_apart",
    "Godeep.Props.C92_example"
   ],
   "note": ""
  },
  {
   "property": "C93",
   "status": "proved",
   "theorems": [
    "Godeep.Props.C93_rate_zero",
    "Godeep.Props.C93_example"
   ],
   "note": ""
  },
  {
   "property": "C94",
   "status": "proved",
   "theorems": [
    "Godeep.Props.C94_structure_stays",
    "Godeep.Props.C94_kinds_stay",
    "Godeep.Props.C94_history",
    "Godeep.Props.C94_example"
   ],
   "note": ""
  },
  {
   "property": "C95",
   "status": "proved",
   "theorems": [
    "Godeep.Props.C95_shape_stays",
    "Godeep.Props.C95_numbers",
    "Godeep.Props.C95_example"
   ],
   "note": ""
  }
 ]
}