{
 "claims": [
  {
   "property": "C01",
   "status": "proved",
   "theorems": [
    "DW.Props.TensorP.tensor_layout"
   ],
   "note": ""
  },
  {
   "property": "C02",
   "status": "proved",
   "theorems": [
    "DW.Props.TensorP.allocate_throws_iff",
    "DW.Props.TensorP.allocate_throw_unchanged",
    "DW.Props.TensorP.ofShape_throws_iff"
   ],
   "note": ""
  },
  {
   "property": "C03",
   "status": "proved",
   "theorems": [
    "DW.Props.TensorP.copyTo_throws_iff",
    "DW.Props.TensorP.copyTo_copies",
    "DW.Props.TensorP.copyTo_unallocated_source"
   ],
   "note": "Partially overlapping storage (only possible with raw-pointer views) is excluded, as in the property."
  },
  {
   "property": "C04",
   "status": "partial",
   "theorems": [
    "DW.Props.TensorP.reshape_partial",
    "DW.Props.TensorP.reshape_refuted"
   ],
   "note": "All of the property except 'dimensions stay non-negative', which the code violates (refuted by {-2,-3})."
  },
  {
   "property": "C05",
   "status": "proved",
   "theorems": [
    "DW.Props.TensorP.tensor_memory_safe",
    "DW.Props.TensorP.tensor_total_invariant"
   ],
   "note": ""
  },
  {
   "property": "C06",
   "status": "proved",
   "theorems": [
    "DW.Props.TensorP.write_no_alias",
    "DW.Props.TensorP.allocate_no_alias",
    "DW.Props.TensorP.view_aliases",
    "DW.Props.TensorP.view_dangles"
   ],
   "note": ""
  },
  {
   "property": "C07",
   "status": "proved",
   "theorems": [
    "DW.Props.TensorP.constant_fills",
    "DW.Props.TensorP.uniform_fills",
    "DW.Props.TensorP.xavier_fills",
    "DW.Props.TensorP.xavier_edge"
   ],
   "note": ""
  },
  {
   "property": "C08",
   "status": "partial",
   "theorems": [
    "DW.Props.NNP.window_shape_partial",
    "DW.Props.NNP.windowOut_refuted",
    "DW.Props.NNP.windowOut_oversized",
    "DW.Props.NNP.zero_stride_undefined",
    "DW.Props.NNP.apply_pool_shape",
    "DW.Props.NNP.apply_conv_shape"
   ],
   "note": "Kernels larger than the padded input are handled wrongly by the code; refuted and characterised."
  },
  {
   "property": "C09",
   "status": "partial",
   "theorems": [
    "DW.Props.NNP.apply_documented_shape",
    "DW.Props.NNP.unsupported_throws_partial",
    "DW.Props.NNP.unsupported_refuted",
    "DW.Props.NNP.unsupported_undefined",
    "DW.Props.NNP.apply_pool_shape",
    "DW.Props.NNP.apply_conv_shape"
   ],
   "note": "init() runs before the rank check, so low ranks are undefined behaviour instead of an exception (refuted)."
  },
  {
   "property": "C10",
   "status": "proved",
   "theorems": [
    "DW.Props.NNP.makeOp_round_trip",
    "DW.Props.NNP.makeLayer_eq",
    "DW.Props.NNP.makeLayer_unknown",
    "DW.Props.NNP.type_attrs_inj"
   ],
   "note": ""
  },
  {
   "property": "C11",
   "status": "proved",
   "theorems": [
    "DW.Props.GraphP.model_layers_exact",
    "DW.Props.GraphP.model_total",
    "DW.Props.GraphP.unroll_terminates",
    "DW.Props.GraphP.topological_order_exists"
   ],
   "note": ""
  },
  {
   "property": "C12",
   "status": "proved",
   "theorems": [
    "DW.Props.GraphP.layers_in_dependency_order",
    "DW.Props.GraphP.data_ids"
   ],
   "note": ""
  },
  {
   "property": "C13",
   "status": "partial",
   "theorems": [
    "DW.Props.GraphP.wiring_partial",
    "DW.Props.GraphP.wiring_exact",
    "DW.Props.GraphP.wiring_chain",
    "DW.Props.GraphP.wiring_refuted",
    "DW.Props.AppliedP.application_wired_partial"
   ],
   "note": "Wiring is right whenever no argument or output list puts a produced placeholder before something computed from it; otherwise the code duplicates ports (refuted). wiring_exact says what the code does for every graph."
  },
  {
   "property": "C14",
   "status": "proved",
   "theorems": [
    "DW.Props.GraphP.names_unique_iff",
    "DW.Props.GraphP.getLayer_exact"
   ],
   "note": ""
  },
  {
   "property": "C15",
   "status": "proved",
   "theorems": [
    "DW.Props.GraphP.generated_names_distinct",
    "DW.Props.GraphP.unnamed_never_clash"
   ],
   "note": ""
  },
  {
   "property": "C16",
   "status": "proved",
   "theorems": [
    "DW.Props.GraphP.params_state_exact",
    "DW.Props.GraphP.keys_distinct",
    "DW.Props.GraphP.tensor_names"
   ],
   "note": ""
  },
  {
   "property": "C17",
   "status": "proved",
   "theorems": [
    "DW.Props.GraphP.layer_reuse_rejected"
   ],
   "note": ""
  },
  {
   "property": "C18",
   "status": "proved",
   "theorems": [
    "DW.Props.GraphP.train_exact",
    "DW.Props.GraphP.train_all",
    "DW.Props.GraphP.train_last_wins"
   ],
   "note": ""
  },
  {
   "property": "C19",
   "status": "partial",
   "theorems": [
    "DW.Props.BackendP.forward_evaluates_partial",
    "DW.Props.BackendP.compile_succeeds",
    "DW.Props.BackendP.values_exist",
    "DW.Props.BackendP.session",
    "DW.Props.BackendP.built_exists",
    "DW.Props.BackendP.forward_evaluates_refuted"
   ],
   "note": "False if an input is listed as an output too. Proved after every history of calls for models with orderly wiring whose sources are listed as inputs and whose outputs are computed by layers."
  },
  {
   "property": "C20",
   "status": "proved",
   "theorems": [
    "DW.Props.BackendP.forward_repeatable",
    "DW.Props.BackendP.forward_needs_compile",
    "DW.Props.BackendP.backward_needs_compile",
    "DW.Props.BackendP.values_of_inputs",
    "DW.Props.BackendP.values_same"
   ],
   "note": "Over the reals."
  },
  {
   "property": "C21",
   "status": "partial",
   "theorems": [
    "DW.Props.BackendP.backward_general",
    "DW.Props.BackendP.backward_sums_partial",
    "DW.Props.BackendP.backward_sums_refuted"
   ],
   "note": "False if the input of a BatchNorm2D is used elsewhere. backward_general says exactly what is accumulated in every model; backward_sums_partial is the property when every BatchNorm2D is the only consumer of its input."
  },
  {
   "property": "C22",
   "status": "proved",
   "theorems": [
    "DW.Props.BackendP.param_gradients_of_last_pass",
    "DW.Props.BackendP.backward_again"
   ],
   "note": "Over the reals."
  },
  {
   "property": "C23",
   "status": "partial",
   "theorems": [
    "DW.Props.BackendP.backward_derivative_partial",
    "DW.Props.BackendP.backward_derivative_smooth_partial",
    "DW.Props.BackendP.backward_derivative_refuted",
    "DW.Props.SmoothP.layer_differentiable"
   ],
   "note": "Over the reals. False in full: a BatchNorm2D replaces the gradient of its input, so residual blocks lose a summand (backward_derivative_refuted). Proved when every BatchNorm2D is the only consumer of its input and every layer's gradients are exact; the smooth version replaces differentiability by 'no value sits on a kink'."
  },
  {
   "property": "C24",
   "status": "proved",
   "theorems": [
    "DW.Props.DenseP.linear_forward",
    "DW.Props.DenseP.linear_forward_throws"
   ],
   "note": "Over the reals."
  },
  {
   "property": "C25",
   "status": "proved",
   "theorems": [
    "DW.Props.DenseP.linear_backward",
    "DW.Props.DenseP.linear_updateGradients"
   ],
   "note": "Over the reals."
  },
  {
   "property": "C26",
   "status": "proved",
   "theorems": [
    "DW.Props.DenseP.relu_forward",
    "DW.Props.DenseP.leakyReLU_forward",
    "DW.Props.DenseP.elu_forward",
    "DW.Props.DenseP.sigmoid_forward",
    "DW.Props.DenseP.sigmoid_mem",
    "DW.Props.DenseP.activation_throws"
   ],
   "note": "Over the reals."
  },
  {
   "property": "C27",
   "status": "proved",
   "theorems": [
    "DW.Props.DenseP.relu_backward",
    "DW.Props.DenseP.leakyReLU_backward",
    "DW.Props.DenseP.elu_backward",
    "DW.Props.DenseP.sigmoid_backward",
    "DW.Props.DenseP.differentiableAt_of_ne_zero"
   ],
   "note": "Over the reals."
  },
  {
   "property": "C28",
   "status": "proved",
   "theorems": [
    "DW.Props.DenseP.softmax_forward",
    "DW.Props.DenseP.softmax_probability",
    "DW.Props.DenseP.softmax_shift",
    "DW.Props.DenseP.softmax_exponents",
    "DW.Props.DenseP.softmax_throws"
   ],
   "note": "Over the reals."
  },
  {
   "property": "C29",
   "status": "proved",
   "theorems": [
    "DW.Props.DenseP.softmax_backward"
   ],
   "note": "Over the reals."
  },
  {
   "property": "C30",
   "status": "proved",
   "theorems": [
    "DW.Props.ConvP.im2col_elements",
    "DW.Props.ConvP.positions_fit",
    "DW.Props.ConvP.windowOut_valid"
   ],
   "note": "Element counts at most INT_MAX."
  },
  {
   "property": "C31",
   "status": "proved",
   "theorems": [
    "DW.Props.ConvP.col2im_adds",
    "DW.Props.ConvP.im2col_col2im_adjoint"
   ],
   "note": "Over the reals."
  },
  {
   "property": "C32",
   "status": "proved",
   "theorems": [
    "DW.Props.ConvP.convolution_forward"
   ],
   "note": "Over the reals; the sequential schedule, see C43 for the others."
  },
  {
   "property": "C33",
   "status": "proved",
   "theorems": [
    "DW.Props.ConvP.convolution_input_gradient",
    "DW.Props.ConvP.convolution_parameter_gradients",
    "DW.Props.ConvP.convolution_needs_forward"
   ],
   "note": "Over the reals."
  },
  {
   "property": "C34",
   "status": "partial",
   "theorems": [
    "DW.Props.MaxPoolP.maxPooling_forward",
    "DW.Props.MaxPoolP.window_maximum_refuted",
    "DW.Props.MaxPoolP.window_maximum_partial",
    "DW.Props.MaxPoolP.inside_of_no_padding"
   ],
   "note": "False: padding counts as the smallest positive float, so negative windows at the border give that value. Proved for windows inside the image or with a pixel at least that large."
  },
  {
   "property": "C35",
   "status": "partial",
   "theorems": [
    "DW.Props.MaxPoolP.maxPooling_backward",
    "DW.Props.MaxPoolP.max_gradient_refuted",
    "DW.Props.MaxPoolP.max_gradient_partial",
    "DW.Props.MaxPoolP.maxPooling_gradient"
   ],
   "note": "False for the same reason; proved under the same condition. maxPooling_gradient holds for every padding, for the function the forward pass computes."
  },
  {
   "property": "C36",
   "status": "proved",
   "theorems": [
    "DW.Props.ElementwiseP.gap_forward",
    "DW.Props.ElementwiseP.gap_backward"
   ],
   "note": "Over the reals."
  },
  {
   "property": "C37",
   "status": "proved",
   "theorems": [
    "DW.Props.BatchNormP.batchNorm1d_train",
    "DW.Props.BatchNormP.normalised_mean",
    "DW.Props.BatchNormP.normalised_meanSq",
    "DW.Props.BatchNormP.batchNorm1d_history"
   ],
   "note": "Over the reals."
  },
  {
   "property": "C38",
   "status": "proved",
   "theorems": [
    "DW.Props.BatchNormP.batchNorm1d_eval",
    "DW.Props.BatchNormP.batchNorm1d_train_then_eval",
    "DW.Props.BatchNormP.batchNorm2d_eval"
   ],
   "note": "Over the reals."
  },
  {
   "property": "C39",
   "status": "proved",
   "theorems": [
    "DW.Props.BatchNormP.batchNorm1d_backward",
    "DW.Props.BatchNormP.batchNorm1d_updateGradients",
    "DW.Props.BatchNormP.batchNorm2d_backward",
    "DW.Props.BatchNormP.batchNorm2d_updateGradients"
   ],
   "note": "Over the reals. For BatchNorm2D the batch must have as many pixels as the first one; see C40."
  },
  {
   "property": "C40",
   "status": "partial",
   "theorems": [
    "DW.Props.BatchNormP.batchNorm2d_train",
    "DW.Props.BatchNormP.any_sequence_partial",
    "DW.Props.BatchNormP.any_sequence_refuted",
    "DW.Props.BatchNormP.batchNorm2d_larger_ub",
    "DW.Props.BatchNormP.smaller_batch_ub",
    "DW.Props.BatchNormP.batchNorm2d_overwrites"
   ],
   "note": "False for batches with more pixels than the first; backward is undefined after a smaller one and overwrites instead of adding."
  },
  {
   "property": "C41",
   "status": "partial",
   "theorems": [
    "DW.Props.ElementwiseP.dropout_forward_train",
    "DW.Props.ElementwiseP.dropout_zero",
    "DW.Props.ElementwiseP.dropout_forward_eval",
    "DW.Props.ElementwiseP.dropout_throws",
    "DW.Props.ElementwiseP.dropout_backward",
    "DW.Props.ElementwiseP.dropout_gradient_refuted",
    "DW.Props.ElementwiseP.dropout_eval_gradient_refuted",
    "DW.Props.ElementwiseP.dropout_gradient_partial",
    "DW.Props.ElementwiseP.dropout_other_batch_ub"
   ],
   "note": "The forward part is proved; the gradient part is false in both modes, and batch sizes other than the placeholder's are undefined in training mode."
  },
  {
   "property": "C42",
   "status": "proved",
   "theorems": [
    "DW.Props.ElementwiseP.add_forward",
    "DW.Props.ElementwiseP.add_forward_throws",
    "DW.Props.ElementwiseP.add_backward",
    "DW.Props.ElementwiseP.add_backward_distinct",
    "DW.Props.ElementwiseP.add_backward_same",
    "DW.Props.ElementwiseP.add_gradient"
   ],
   "note": "Over the reals."
  },
  {
   "property": "C43",
   "status": "proved",
   "theorems": [
    "DW.Props.ParallelP.schedules_agree",
    "DW.Props.ParallelP.race_free",
    "DW.Props.ParallelP.schedules_finish",
    "DW.Props.ParallelP.convolution_footprint",
    "DW.Props.ParallelP.convolution_any_schedule",
    "DW.Props.ParallelP.convolution_grad_any_schedule",
    "DW.Props.ParallelP.add_any_schedule",
    "DW.Props.ParallelP.convolution_any_arithmetic",
    "DW.Props.ParallelP.convolution_grad_any_arithmetic",
    "DW.Props.ParallelP.add_any_arithmetic"
   ],
   "note": "Interleaving semantics, justified by race_free. The any_arithmetic theorems assume nothing about zero, addition and multiplication, so the results are the same bits in float; the any_schedule theorems say which values these are over the reals."
  },
  {
   "property": "C44",
   "status": "proved",
   "theorems": [
    "DW.Props.LayoutP.nchw2nhwc_transposes",
    "DW.Props.LayoutP.nhwc2nchw_transposes",
    "DW.Props.LayoutP.nchw_round_trip",
    "DW.Props.LayoutP.nhwc_round_trip",
    "DW.Props.LayoutP.nhwcIdx_perm",
    "DW.Props.LayoutP.nchwIdx_perm"
   ],
   "note": ""
  },
  {
   "property": "C45",
   "status": "proved",
   "theorems": [
    "DW.Props.LossP.loss_forward",
    "DW.Props.LossP.loss_nonneg",
    "DW.Props.LossP.loss_zero_iff",
    "DW.Props.LossP.loss_throws"
   ],
   "note": "Over the reals; element count at most INT_MAX."
  },
  {
   "property": "C46",
   "status": "proved",
   "theorems": [
    "DW.Props.LossP.loss_backward",
    "DW.Props.LossP.loss_gradient",
    "DW.Props.LossP.loss_backward_throws"
   ],
   "note": "Over the reals; element count at most INT_MAX."
  },
  {
   "property": "C47",
   "status": "partial",
   "theorems": [
    "DW.Props.LossP.loss_defined_iff",
    "DW.Props.LossP.labels_safe_refuted",
    "DW.Props.LossP.negative_label_ub",
    "DW.Props.LossP.label_reads_other_row",
    "DW.Props.LossP.labels_safe_partial"
   ],
   "note": "The property is false of the code: labels are not range-checked. loss_defined_iff says exactly which label tensors are safe."
  },
  {
   "property": "C48",
   "status": "proved",
   "theorems": [
    "DW.Props.LossP.accuracy_eq",
    "DW.Props.LossP.accuracy_range",
    "DW.Props.LossP.accuracy_one_iff",
    "DW.Props.LossP.accuracy_mono",
    "DW.Props.LossP.accuracy_perm",
    "DW.Props.LossP.accuracy_throws"
   ],
   "note": "At least one column; with no rows the code divides 0 by 0, which the reals cannot express."
  },
  {
   "property": "C49",
   "status": "proved",
   "theorems": [
    "DW.Props.LossP.accuracyOneHot_eq",
    "DW.Props.LossP.accuracyOneHot_agrees",
    "DW.Props.LossP.accuracyOneHot_throws"
   ],
   "note": ""
  },
  {
   "property": "C50",
   "status": "proved",
   "theorems": [
    "DW.Props.OptP.sgd_step",
    "DW.Props.OptP.sgd_step_order",
    "DW.Props.OptP.sgd_history",
    "DW.Props.OptP.sgd_constant"
   ],
   "note": ""
  },
  {
   "property": "C51",
   "status": "proved",
   "theorems": [
    "DW.Props.OptP.momentum_history",
    "DW.Props.OptP.momentum_velocity",
    "DW.Props.OptP.momentum_zero_is_sgd",
    "DW.Props.OptP.momentum_new_parameter_throws"
   ],
   "note": ""
  },
  {
   "property": "C52",
   "status": "proved",
   "theorems": [
    "DW.Props.OptP.adam_history",
    "DW.Props.OptP.adam_constant_moments",
    "DW.Props.OptP.adam_constant_step",
    "DW.Props.OptP.adam_step_bounded"
   ],
   "note": ""
  },
  {
   "property": "C53",
   "status": "proved",
   "theorems": [
    "DW.Props.OptP.sgd_lr",
    "DW.Props.OptP.momentum_lr",
    "DW.Props.OptP.adam_lr"
   ],
   "note": ""
  },
  {
   "property": "C54",
   "status": "proved",
   "theorems": [
    "DW.Props.SerP.save_state_format",
    "DW.Props.SerP.state_round_trip"
   ],
   "note": ""
  },
  {
   "property": "C55",
   "status": "proved",
   "theorems": [
    "DW.Props.SerP.save_cfg_format",
    "DW.Props.SerP.cfg_round_trip",
    "DW.Props.SerP.save_cfg_unsupported"
   ],
   "note": ""
  },
  {
   "property": "C56",
   "status": "partial",
   "theorems": [
    "DW.Props.SaveLoadP.model_round_trip_partial",
    "DW.Props.SaveLoadP.own_tensors_of_direct",
    "DW.Props.SaveLoadP.model_round_trip_refuted",
    "DW.Props.SaveLoadP.unlisted_source_fails",
    "DW.Props.SaveLoadP.stale_tensors_fail"
   ],
   "note": "False: the order of outputs is lost, a source that is not an input makes loading fail, and a layer whose tensors do not fit its input cannot be restored. Proved for models that list their sources as inputs and their outputs in order, whose layers hold the tensors that fit their inputs, as all layers do that are applied where they are created."
  },
  {
   "property": "C57",
   "status": "proved",
   "theorems": [
    "DW.Props.SerP.load_state_rejects_config",
    "DW.Props.SerP.load_cfg_rejects_state",
    "DW.Props.SerP.other_kind_rejected",
    "DW.Props.SerP.config_then_state"
   ],
   "note": ""
  },
  {
   "property": "C58",
   "status": "partial",
   "theorems": [
    "DW.Props.SerP.load_state_any_partial",
    "DW.Props.SerP.load_state_any_refuted"
   ],
   "note": "Holds for every byte string below 32 GiB when no key is empty; refuted with an empty key (loop counter overflow)."
  },
  {
   "property": "C59",
   "status": "partial",
   "theorems": [
    "DW.Props.SerP.truncation_exact",
    "DW.Props.SerP.truncation_refuted",
    "DW.Props.SerP.truncation_refuted_empty",
    "DW.Props.SerP.truncation_refuted_data",
    "DW.Props.SerP.truncation_detected_partial"
   ],
   "note": "The property is false of the code; truncation_exact decides every crash point."
  },
  {
   "property": "C60",
   "status": "partial",
   "theorems": [
    "DW.Props.SerP.load_state_atomic_partial",
    "DW.Props.SerP.load_state_not_atomic"
   ],
   "note": "The property is false of the code; the partial theorem says exactly what a failed load leaves."
  },
  {
   "property": "C61",
   "status": "proved",
   "theorems": [
    "DW.Props.LoaderP.sequential_epochs"
   ],
   "note": ""
  },
  {
   "property": "C62",
   "status": "partial",
   "theorems": [
    "DW.Props.LoaderP.randomIndices_distinct",
    "DW.Props.LoaderP.randomIndices_terminates",
    "DW.Props.LoaderP.shuffled_epoch_refuted",
    "DW.Props.LoaderP.shuffled_epochs_partial"
   ],
   "note": "The property is false of the code: indices are distinct within a batch, not within an epoch."
  },
  {
   "property": "C63",
   "status": "proved",
   "theorems": [
    "DW.Props.LoaderP.pull_layout",
    "DW.Props.LoaderP.pull_throws_x",
    "DW.Props.LoaderP.pull_throws_y"
   ],
   "note": ""
  },
  {
   "property": "C64",
   "status": "partial",
   "theorems": [
    "DW.Props.LoaderP.batch_zero_never_ends",
    "DW.Props.LoaderP.every_epoch_ends_refuted",
    "DW.Props.LoaderP.epoch_ends_partial"
   ],
   "note": "Refuted for batch size 0; proved for every positive batch size."
  },
  {
   "property": "C65",
   "status": "proved",
   "theorems": [
    "DW.Props.ImageP.hasExtension_iff",
    "DW.Props.ImageP.dispatch"
   ],
   "note": ""
  },
  {
   "property": "C66",
   "status": "partial",
   "theorems": [
    "DW.Props.ImageP.read_pixels",
    "DW.Props.ImageP.read_wrong_size",
    "DW.Props.ImageP.missing_is_ub",
    "DW.Props.ImageP.missing_throws_refuted",
    "DW.Props.ImageP.packed_rows_oob"
   ],
   "note": "Pixels and sizes are proved for decoders delivering one byte per sample. Refuted: a missing file calls fclose(NULL); fewer than eight bits per sample read past the row."
  },
  {
   "property": "C67",
   "status": "proved",
   "theorems": [
    "DW.Props.PrintP.showShape_injective"
   ],
   "note": ""
  },
  {
   "property": "C68",
   "status": "partial",
   "theorems": [
    "DW.Props.GraphP.config_order_partial",
    "DW.Props.GraphP.cfg_ids",
    "DW.Props.GraphP.config_order_single",
    "DW.Props.GraphP.config_order_refuted"
   ],
   "note": "The code lists ids in increasing order, so the user's order is kept iff it was increasing; refuted otherwise."
  },
  {
   "property": "C69",
   "status": "partial",
   "theorems": [
    "DW.Props.BackendP.backward_untouched_partial",
    "DW.Props.BackendP.backward_changes_gradOutput"
   ],
   "note": "False for outputs that other layers use. Proved for inputs and outputs, and for grad_output when no output is consumed by another layer."
  },
  {
   "property": "C70",
   "status": "partial",
   "theorems": [
    "DW.Props.GraphP.unused_input_undefined",
    "DW.Props.GraphP.identity_model_undefined"
   ],
   "note": "The property is false of the code: every such construction is undefined behaviour. The theorems prove exactly that; the positive half is model_total (C11)."
  },
  {
   "property": "C71",
   "status": "partial",
   "theorems": [
    "DW.Props.GraphP.construction_pure_partial",
    "DW.Props.GraphP.models_interfere"
   ],
   "note": "True when all layers are named; refuted for generated names."
  },
  {
   "property": "C72",
   "status": "partial",
   "theorems": [
    "DW.Props.ImageP.opens_path_refuted",
    "DW.Props.ImageP.unterminated_ub",
    "DW.Props.ImageP.opens_path_partial"
   ],
   "note": "False for views not followed by a NUL."
  },
  {
   "property": "C73",
   "status": "partial",
   "theorems": [
    "DW.Props.ImageP.corrupt_jpeg_exits",
    "DW.Props.ImageP.corrupt_throws_refuted",
    "DW.Props.ImageP.corrupt_pixels_ub",
    "DW.Props.ImageP.corrupt_throws_partial"
   ],
   "note": "False: a broken JPEG ends the process, broken PNG pixel data are undefined."
  },
  {
   "property": "C74",
   "status": "partial",
   "theorems": [
    "DW.Props.BatchNormP.eval_gradient_refuted",
    "DW.Props.BatchNormP.eval_gradient_partial"
   ],
   "note": "False: backward always uses the training-mode formula. The parameter gradients are right."
  },
  {
   "property": "C75",
   "status": "partial",
   "theorems": [
    "DW.Props.RejectedP.rejected_application_partial",
    "DW.Props.RejectedP.rejected_application_refuted",
    "DW.Props.RejectedP.rejected_application_poisons"
   ],
   "note": "False: the first rejected application of Linear leaves its weight behind. Proved for layers without parameters and for layers that were applied before; other layers, placeholders and applications are never changed."
  },
  {
   "property": "C76",
   "status": "proved",
   "theorems": [
    "DW.Props.AppliedP.application_recorded",
    "DW.Props.AppliedP.placeholder_unchanged",
    "DW.Props.AppliedP.application_unique"
   ],
   "note": ""
  },
  {
   "property": "C77",
   "status": "proved",
   "theorems": [
    "DW.Props.BackendP.train_switches",
    "DW.Props.BackendP.eval_repeatable",
    "DW.Props.BackendP.eval_buffers",
    "DW.Props.BackendP.variances_nonneg",
    "DW.Props.BackendP.infos_distinct"
   ],
   "note": "Over the reals, for models whose running variances start non-negative with momentum in [0,1] and dropout probability below 1. The parameters are equal after the switch by train_switches; what the layers compute in each mode is the relation Computes."
  },
  {
   "property": "C78",
   "status": "proved",
   "theorems": [
    "DW.Props.TrainP.sgd_iteration",
    "DW.Props.TrainP.batch_pass",
    "DW.Props.TrainP.backward_chain",
    "DW.Props.TrainP.predOf_gradient",
    "DW.Props.TrainP.batch_session",
    "DW.TrainL.sgd_layers"
   ],
   "note": "Over the reals. Conditions, on the values and the model only: no layer at a kink (NoKinks), predictions of the labels positive, no dropout of non-zero rate and no batch normalisation in evaluation mode (exact: C41 and C74 say why), inputs of BatchNorm2D not used elsewhere (SoleConsumer). The outcome is the same state of affairs (History) again, so the theorem applies to every iteration of a loop."
  },
  {
   "property": "C79",
   "status": "partial",
   "theorems": [
    "DW.Props.GeometryP.unusable_never_runs_partial",
    "DW.Props.GeometryP.layer_throws",
    "DW.Props.GeometryP.zero_stride_undefined",
    "DW.Props.GeometryP.outShape_window"
   ],
   "note": "False for stride 0: the application divides by it before any check. Proved: no forward of a model with such a layer ever returns normally, and the layer itself throws before touching any tensor."
  },
  {
   "property": "C80",
   "status": "proved",
   "theorems": [
    "DW.Props.DescentP.sgd_lowers_loss",
    "DW.Props.DescentP.evaluates_env",
    "DW.Props.DescentP.class_not_stationary",
    "DW.NetL.reverse_mode_all"
   ],
   "note": "Over the reals, under the conditions of C78 and with drawn numbers non-negative. The model's forward may draw other numbers in the second run."
  },
  {
   "property": "C81",
   "status": "proved",
   "theorems": [
    "DW.Props.LoopP.sgd_training",
    "DW.Props.LoopP.momentum_training",
    "DW.Props.LoopP.adam_training",
    "DW.Props.LoopP.rule_training",
    "DW.Props.LoopP.gradient_exists",
    "DW.Props.LoopP.course_exists",
    "DW.Props.LoopP.loop_session",
    "DW.Props.LoopP.lossGradient_unique",
    "DW.TrainL.OptState.fresh",
    "DW.TrainL.OptState.later",
    "DW.TrainL.rule_layers"
   ],
   "note": "Over the reals, under the conditions of C78 in each round. Course is the mathematical course of the training (values of the network, gradient of the loss of the batch, optimizer recursion); the gradient is determined by the loss (lossGradient_unique) and for models without kinks courses of any length exist (course_exists)."
  },
  {
   "property": "C82",
   "status": "proved",
   "theorems": [
    "DW.Props.ReloadP.reloaded_computes",
    "DW.Props.ReloadP.trained_reloaded",
    "DW.ReloadL.built_reloaded",
    "DW.ReloadL.tensors_exist"
   ],
   "note": "Over the reals: a float in the file stands for one real number (any assignment `real`), so equal bytes give equal numbers. For the models of C56's proved part (Restorable) that are meaningful networks (Built)."
  },
  {
   "property": "C83",
   "status": "proved",
   "theorems": [
    "DW.Props.BatchP.eval_by_sample",
    "DW.Props.BatchP.fwd_session",
    "DW.Props.BatchP.training_mixes_samples",
    "DW.BatchL.values_sample",
    "DW.BatchL.batches",
    "DW.BatchL.computes_sample"
   ],
   "note": "Over the reals. training_mixes_samples shows that evaluation mode is needed."
  },
  {
   "property": "C84",
   "status": "proved",
   "theorems": [
    "DW.Props.ValidationP.validation_accuracy",
    "DW.Props.ValidationP.predicts_exists",
    "DW.Props.ValidationP.pullInto_pull",
    "DW.Props.ValidationP.val_session",
    "DW.ValL.pullInto_spec"
   ],
   "note": "Over the reals. If the dataset is smaller than a batch the loop divides 0 by 0, which is outside the theorem. pullInto, the data loader on the tensors of a program with a model, does what the model of src/dataloader.cpp does (pullInto_pull)."
  },
  {
   "property": "C85",
   "status": "proved",
   "theorems": [
    "DW.Props.EpochP.momentum_descends",
    "DW.Props.EpochP.adam_descends",
    "DW.Props.EpochP.sgd_descends",
    "DW.Props.EpochP.momentum_epochs",
    "DW.Props.EpochP.adam_epochs",
    "DW.Props.EpochP.sgd_epochs",
    "DW.Props.EpochP.rule_epochs",
    "DW.Props.EpochP.one_epoch",
    "DW.Props.EpochP.training_rounds",
    "DW.Props.EpochP.epochCourse_exists",
    "DW.Props.EpochP.epoch_session",
    "DW.EpochL.train_again",
    "DW.AgainL.unique"
   ],
   "note": "Over the reals. The *_epochs theorems are for losses that are differentiable where the training passes (as C81); the *_descends theorems need no such assumption: the numbers the optimizer is given are the gradient in all rounds without kinks. A learning rate that is not changed, as in the samples. The progress printed inside the loops is not modelled (samples/mnist/main.cpp:96-98)."
  },
  {
   "property": "C86",
   "status": "proved",
   "theorems": [
    "DW.Props.RunningP.forward_statistics",
    "DW.Props.RunningP.evaluation_statistics",
    "DW.Props.RunningP.others_keep_statistics",
    "DW.Props.RunningP.epochs_statistics",
    "DW.Props.RunningP.compile_statistics",
    "DW.Props.RunningP.create_buffers",
    "DW.Props.RunningP.statistics_exist",
    "DW.Props.RunningP.movingAverage_eq",
    "DW.Props.RunningP.movingAverage_mem",
    "DW.Props.LoopP.rule_training",
    "DW.RunL.forward_averages",
    "DW.RunL.frozen_stats"
   ],
   "note": "Over the reals. load and load_state, which overwrite the statistics, are the subject of C56 and C82."
  },
  {
   "property": "C87",
   "status": "partial",
   "theorems": [
    "DW.Props.SamplesP.iris_rows_partial",
    "DW.Props.SamplesP.iris_pull",
    "DW.Props.SamplesP.unknown_is_setosa",
    "DW.Props.SamplesP.unknown_accepted",
    "DW.Props.SamplesP.short_row_ub",
    "DW.Props.SamplesP.missing_file_empty"
   ],
   "note": "Proved for every table whose rows have at least five fields and one of the three species. The rest is refuted: an unknown species (also one followed by a carriage return) gets label 0, a short or empty line is undefined behaviour, a missing file gives an empty dataset."
  },
  {
   "property": "C88",
   "status": "partial",
   "theorems": [
    "DW.Props.SamplesP.mnist_pull_partial",
    "DW.Props.SamplesP.cifar_pull_partial",
    "DW.Props.SamplesP.cifar_pixel",
    "DW.Props.SamplesP.mnist_wrong_size",
    "DW.Props.SamplesP.cifar_wrong_size",
    "DW.Props.SamplesP.other_accepted"
   ],
   "note": "Proved for every picture with the right number of bytes, and that another number of bytes throws. The rest is refuted: only the number of bytes is checked, so a grey picture of 48x64 pixels is accepted as a CIFAR sample."
  },
  {
   "property": "C89",
   "status": "partial",
   "theorems": [
    "DW.Props.SamplesP.mnist_labels_partial",
    "DW.Props.SamplesP.mnist_label_throws",
    "DW.Props.SamplesP.mnist_label_read",
    "DW.Props.SamplesP.mnist_prefix_accepted",
    "DW.Props.SamplesP.cifar10_labels_partial",
    "DW.Props.SamplesP.classNumber_eq",
    "DW.Props.SamplesP.cifar10_unknown_accepted",
    "DW.Props.SamplesP.cifar100_labels_partial",
    "DW.Props.SamplesP.cifar100_order"
   ],
   "note": "Proved for well-named directories over every history of constructions. The rest is refuted: stoi accepts '7-old' as 7, an unknown CIFAR-10 directory gets label 0, and the CIFAR-100 numbers depend on the order of the listing."
  },
  {
   "property": "C90",
   "status": "proved",
   "theorems": [
    "DW.Props.BatchNormP.batchNorm1d_flags_differ",
    "DW.Props.BatchNormP.batchNorm2d_flags_differ"
   ],
   "note": "The layer is given tensors of the right shapes."
  },
  {
   "property": "C91",
   "status": "proved",
   "theorems": [
    "DW.Props.SampleModelsP.mnist_model",
    "DW.Props.SampleModelsP.iris_model",
    "DW.Props.SampleModelsP.cifar10_model",
    "DW.Props.SampleModelsP.resnet_model",
    "DW.Props.SampleModelsP.canTrain",
    "DW.Props.SampleModelsP.eps_of",
    "DW.Props.SampleModelsP.initEntries_nodup",
    "DW.Props.SampleModelsP.tensorsFit_exists",
    "DW.Props.SampleModelsP.netTensors_exist"
   ],
   "note": "EpsPos says that the decoding of float constants gives a positive number for eps."
  },
  {
   "property": "C92",
   "status": "proved",
   "theorems": [
    "DW.Props.SampleModelsP.mnist_forward",
    "DW.Props.SampleModelsP.iris_forward",
    "DW.Props.SampleModelsP.cifar10_forward",
    "DW.Props.SampleModelsP.resnet_forward",
    "DW.Props.SampleModelsP.net_forward",
    "DW.Props.SampleModelsP.ofFn_rows",
    "DW.Props.SampleModelsP.ofFn_images",
    "DW.SampleL.dense_values",
    "DW.SampleL.cifar_values",
    "DW.SampleL.resnet_values"
   ],
   "note": "Over the reals. The histories are those that have not changed the parameters; after training the theorem applies with the trained parameters (History with the new tensors)."
  },
  {
   "property": "C93",
   "status": "proved",
   "theorems": [
    "DW.Props.SampleModelsP.softmax_probabilities",
    "DW.Props.SampleModelsP.softmax_rows",
    "DW.Props.SampleModelsP.softmax_row"
   ],
   "note": "Over the reals; with floats the sums are 1 up to rounding and small exponentials become 0."
  },
  {
   "property": "C94",
   "status": "proved",
   "theorems": [
    "DW.Props.TestModeP.trained_tested",
    "DW.Props.TestModeP.validated_reloaded",
    "DW.Props.TestModeP.epoch_tested",
    "DW.Props.TestModeP.predicts_same"
   ],
   "note": "Over the reals, with any decoding of the stored floats: the numbers of the trained tensors are those the saved bytes stand for (StateHolds)."
  },
  {
   "property": "C95",
   "status": "proved",
   "theorems": [
    "DW.Props.SampleModelsP.mnist_saved",
    "DW.Props.SampleModelsP.iris_saved",
    "DW.Props.SampleModelsP.cifar10_saved",
    "DW.Props.SampleModelsP.resnet_saved",
    "DW.Props.SampleModelsP.canSave"
   ],
   "note": "The allocation limit is any number from 1000 to 2^63-1. Together with C82 and C94 the loaded models compute and report the same."
  },
  {
   "property": "C96",
   "status": "proved",
   "theorems": [
    "DW.Props.SampleModelsP.mnist_trained",
    "DW.Props.SampleModelsP.iris_trained",
    "DW.Props.SampleModelsP.cifar10_trained",
    "DW.Props.SampleModelsP.resnet_trained",
    "DW.Props.SampleModelsP.net_trains",
    "DW.Props.EpochP.descent_exists"
   ],
   "note": "Over the reals. Trains says that the program follows some descent, whose gradients are right in all rounds without a kink (at a kink the loss has no gradient), and every descent without kinks. The examples show both: MNIST without a kink (dense_noKinks), CIFAR-10 through kinks."
  },
  {
   "property": "C97",
   "status": "proved",
   "theorems": [
    "DW.Props.EndToEndP.trained_saved_tested",
    "DW.Props.EndToEndP.mnist_tested",
    "DW.Props.EndToEndP.iris_tested",
    "DW.Props.EndToEndP.cifar10_tested",
    "DW.Props.EndToEndP.resnet_tested",
    "DW.Props.EndToEndP.net_tests",
    "DW.Props.EndToEndP.saved_tests"
   ],
   "note": "Over the reals: the saved bytes stand for the numbers in the tensors (Saves), under any reading of floats that is fit for the batch normalisation constants. The last example trains a classifier and names the resulting numbers by floats."
  },
  {
   "property": "C98",
   "status": "proved",
   "theorems": [
    "DW.Props.FloatSoftmaxP.softmax_range",
    "DW.Props.FloatSoftmaxP.softmax_max",
    "DW.Props.FloatLossP.softmax_exists"
   ],
   "note": "For every rounding and exp with the listed properties (Rounding, Libm); binary32 and libm of Lemmas/Binary32 have them."
  },
  {
   "property": "C99",
   "status": "partial",
   "theorems": [
    "DW.Props.FloatLossP.loss_finite_iff",
    "DW.Props.FloatLossP.gradient_finite_iff",
    "DW.Props.FloatLossP.gradient_finite_partial",
    "DW.Props.FloatLossP.gradient_finite_max_partial",
    "DW.Props.FloatLossP.far_below",
    "DW.Props.FloatLossP.zero_probability_row",
    "DW.Props.FloatLossP.zero_probability_grads",
    "DW.Props.FloatLossP.tiny_probability",
    "DW.Props.FloatLossP.gradient_90",
    "DW.Props.FloatLossP.iteration_exists",
    "DW.Props.FloatLossP.iteration_nan",
    "DW.Props.FloatLossP.iteration_stays_nan",
    "DW.Props.FloatLossP.training_finite_refuted"
   ],
   "note": "Refuted in full. The loss is finite iff no label has probability 0; the gradient is finite iff the reciprocals of the probabilities of the labels do not overflow (gradient_finite_iff), in particular if these probabilities are normal floats. At a positive probability up to 2^-128 the gradient of the label is NaN (gradient_90: logits 90 and 0). At probability 0 (a logit 200 below another) the loss is infinite and one step of SGD makes all parameters of the last layer NaN (training_finite_refuted)."
  },
  {
   "property": "C100",
   "status": "proved",
   "theorems": [
    "DW.Props.FloatDotP.linear_error",
    "DW.Props.FloatDotP.linear_finite",
    "DW.Props.FloatDotP.linear_orders_agree",
    "DW.Props.FloatDotP.dot_good"
   ],
   "note": "For every rounding with the listed properties. DotOf lists the ways of adding products that are covered."
  },
  {
   "property": "C101",
   "status": "partial",
   "theorems": [
    "DW.Props.IntArithP.window_shape",
    "DW.Props.IntArithP.convolution_forward_partial",
    "DW.Props.IntArithP.convolution_forward_overflow",
    "DW.Props.IntArithP.convolution_backward_partial",
    "DW.Props.IntArithP.convolution_backward_of_forward",
    "DW.Props.IntArithP.overflow_refuted",
    "DW.Props.IntArithP.convolution_undefined",
    "DW.Props.IntArithP.pooling_forward_partial",
    "DW.Props.IntArithP.pooling_backward",
    "DW.Props.IntArithP.linear_fits",
    "DW.Props.IntArithP.norm2d_fits",
    "DW.Props.IntArithP.avgPool_fits",
    "DW.Props.IntArithP.matchTarget_fits"
   ],
   "note": "False for convolutions: the number of elements of the column buffer of a whole batch is an int, which overflows for 128 pictures of 224x224 with 64 channels and a 3x3 kernel. Exact conditions: convolution and max pooling overflow iff the elements of their column buffer cannot be counted; the other layers never do."
  },
  {
   "property": "C102",
   "status": "partial",
   "theorems": [
    "DW.Props.FloatGradP.gradient_error_partial",
    "DW.Props.FloatGradP.gradient_error_max",
    "DW.Props.FloatGradP.gradient_error_refuted"
   ],
   "note": "Proved if the probabilities of the labels are normal floats (at least 2^-126), in particular if the predictions are right. False otherwise: for the logits 90 and 0 and the second label the gradient is NaN."
  },
  {
   "property": "C103",
   "status": "proved",
   "theorems": [
    "DW.Props.FloatAccuracyP.softmax_sum",
    "DW.Props.FloatAccuracyP.softmax_error",
    "DW.Props.FloatAccuracyP.gradient_at_logits_partial",
    "DW.Props.FloatAccuracyP.libm_accurate"
   ],
   "note": "The part about the gradient has the condition of C102: the probabilities of the labels are normal floats. libm_accurate: the correctly rounded exp has relative error u."
  },
  {
   "property": "C104",
   "status": "proved",
   "theorems": [
    "DW.Props.FloatTrainP.step_error",
    "DW.Props.FloatTrainP.weightSlope_eq",
    "DW.Props.FloatTrainP.biasSlope_eq",
    "DW.Props.FloatTrainP.probability_rel",
    "DW.Props.FloatTrainP.softmax_close",
    "DW.Props.FloatTrainP.sum_good",
    "DW.Props.FloatTrainP.sgd_error",
    "DW.Props.FloatTrainP.libm_log",
    "DW.Props.FloatTrainP.setting_example"
   ],
   "note": "The partial derivatives are Mathlib's deriv of the exact loss (weightSlope, biasSlope). setting_example: the hypotheses hold in binary32 for any batch of 32 rows of 10 inputs, 4 classes, all numbers in [-1, 1]."
  },
  {
   "property": "C105",
   "status": "partial",
   "theorems": [
    "DW.Props.FloatCountP.accuracy_partial",
    "DW.Props.FloatCountP.accuracyOneHot_partial",
    "DW.Props.FloatCountP.fraction_reads",
    "DW.Props.FloatCountP.count_saturates",
    "DW.Props.FloatCountP.accuracy_exact_refuted",
    "DW.Props.FloatCountP.accuracy_below_one",
    "DW.Props.FloatCountP.wrong_counts_as_right"
   ],
   "note": "Proved for up to 2^24 rows and 2^24 + 1 classes. False beyond: in binary32 the count stops at 2^24, so that 2^24 + 2 rows that are all right have an accuracy below 1, and with 2^24 + 2 classes the wrong class 2^24 + 1 counts as the label 2^24."
  },
  {
   "property": "C106",
   "status": "partial",
   "theorems": [
    "DW.Props.FloatCountP.pool_exact_partial",
    "DW.Props.FloatCountP.stored_eq",
    "DW.Props.FloatCountP.pool_exact_refuted",
    "DW.Props.FloatCountP.pool_oob"
   ],
   "note": "Proved for kernels with at most 2^24 + 1 elements. False beyond: for a kernel of 4096 x 4097 the position of the last element is rounded up and the gradient is written behind the buffer."
  },
  {
   "property": "C107",
   "status": "proved",
   "theorems": [
    "DW.Props.FloatActP.relu_exact",
    "DW.Props.FloatActP.reluBack_exact",
    "DW.Props.FloatActP.leakyRelu_near",
    "DW.Props.FloatActP.leakyReluBack_near",
    "DW.Props.FloatActP.elu_error",
    "DW.Props.FloatActP.eluBack_error",
    "DW.Props.FloatActP.sigmoid_error",
    "DW.Props.FloatActP.sigmoid_range",
    "DW.Props.FloatActP.sigmoidBack_error",
    "DW.Props.FloatActP.sigmoid_gradient_error",
    "DW.Props.FloatActP.dropout_error",
    "DW.Props.FloatActP.accumulate_near",
    "DW.Props.FloatActP.libm_full"
   ],
   "note": "For every rounding and exp with the listed properties; libm_full shows that a correctly rounded exp has them. dropout_error assumes p <= 1 - 2^-25, which every float below 1 satisfies; for p = 1 nothing is finite (dropout_one)."
  },
  {
   "property": "C108",
   "status": "partial",
   "theorems": [
    "DW.Props.FloatActP.keepsNan_partial",
    "DW.Props.FloatActP.linear_keeps_nan",
    "DW.Props.FloatActP.dot_nan",
    "DW.Props.FloatActP.relu_nan",
    "DW.Props.FloatActP.keepsNan_refuted"
   ],
   "note": "False for ReLU, which turns NaN into 0 (relu_nan). Holds for Linear, LeakyReLU, ELU and Sigmoid."
  },
  {
   "property": "C109",
   "status": "proved",
   "theorems": [
    "DW.Props.FloatMomentumP.velocity_error",
    "DW.Props.FloatMomentumP.weight_error",
    "DW.Props.FloatMomentumP.mulAddMul_error",
    "DW.Props.FloatMomentumP.run_exists"
   ],
   "note": "Products and sum may be fused or not, differently in each step."
  },
  {
   "property": "C110",
   "status": "partial",
   "theorems": [
    "DW.Props.FloatAdamP.adam_finite_partial",
    "DW.Props.FloatAdamP.mean_bounded",
    "DW.Props.FloatAdamP.variance_bounded",
    "DW.Props.FloatAdamP.adam_zero_gradient",
    "DW.Props.FloatAdamP.stays_finite_refuted",
    "DW.Props.FloatAdamP.adam_freezes",
    "DW.Props.FloatAdamP.weight_stuck",
    "DW.Props.FloatAdamP.variance_top",
    "DW.Props.FloatAdamP.adam_run_exists"
   ],
   "note": "Proved for gradients up to 2^55. False beyond: the square of a gradient of size 2^64 is infinite, the moving variance stays infinite for ever and the weight never changes again, whatever the later gradients are (adam_freezes). The bias corrections 1 - beta^t are parameters, assumed at least 2^-14. With epsilon = 0 a weight without gradient becomes NaN (adam_zero_gradient)."
  },
  {
   "property": "C111",
   "status": "proved",
   "theorems": [
    "DW.Props.ConvergeP.training_converges",
    "DW.Props.ConvergeP.training_reaches",
    "DW.Props.ConvergeP.pred_eq",
    "DW.Props.ConvergeP.class_classifier"
   ],
   "note": "Exact arithmetic. LossAt is the loss of a forward pass of the program's network with given parameters."
  },
  {
   "property": "C112",
   "status": "proved",
   "theorems": [
    "DW.Props.ConvergeP.training_regret",
    "DW.Props.ConvergeP.loss_at_exists"
   ],
   "note": "Exact arithmetic. The rows of all batches satisfy 1 + |x|^2 <= A."
  },
  {
   "property": "C113",
   "status": "proved",
   "theorems": [
    "DW.Props.FloatAdamStepP.adam_step_near",
    "DW.Props.FloatAdamStepP.adam_update_near",
    "DW.Props.FloatAdamStepP.adam_direction",
    "DW.Props.FloatAdamStepP.sqrtLib_near"
   ],
   "note": "The bias corrections are parameters, assumed at least 2^-14. sqrtLib_near shows that a correctly rounded square root has r = u."
  },
  {
   "property": "C114",
   "status": "proved",
   "theorems": [
    "DW.Props.FloatNetP.network_near",
    "DW.Props.FloatNetP.same_class",
    "DW.Props.FloatNetP.runs_agree",
    "DW.Props.FloatNetP.deep_relu",
    "DW.Props.FloatNetP.network_softmax",
    "DW.Props.FloatNetP.layer_near",
    "DW.Props.FloatNetP.forward_exists"
   ],
   "note": "Chains of layers, without branches. The bound is afterAll; deep_relu gives it in closed form for Linear and ReLU."
  },
  {
   "property": "C115",
   "status": "proved",
   "theorems": [
    "DW.Props.FloatImageP.image_near",
    "DW.Props.FloatImageP.image_order",
    "DW.Props.FloatImageP.image_runs_agree",
    "DW.Props.FloatImageP.image_softmax",
    "DW.Props.FloatImageP.image_exists",
    "DW.Props.FloatImageP.columns",
    "DW.Props.FloatImageP.conv_close",
    "DW.Props.FloatImageP.maxPool_close",
    "DW.Props.FloatImageP.avgPool_close"
   ],
   "note": "Max pooling is compared with itself in exact arithmetic, so it also fills with 2^-126 (the smallest positive normal float, C34). The bound is after'."
  },
  {
   "property": "C116",
   "status": "proved",
   "theorems": [
    "DW.Props.FloatBatchNormP.train_near",
    "DW.Props.FloatBatchNormP.train_bounded",
    "DW.Props.FloatBatchNormP.train_exists",
    "DW.Props.FloatBatchNormP.mean_error",
    "DW.Props.FloatBatchNormP.square_error",
    "DW.Props.FloatBatchNormP.deviation_change"
   ],
   "note": "One column of a batch, as the columns do not influence each other. The conditions are the structure Setting."
  },
  {
   "property": "C117",
   "status": "partial",
   "theorems": [
    "DW.Props.FloatBatchNormP.constant_partial",
    "DW.Props.FloatBatchNormP.one_row_partial",
    "DW.Props.FloatBatchNormP.constant_refuted",
    "DW.Props.FloatBatchNormP.constant_off",
    "DW.Props.FloatBatchNormP.mean_wrong"
   ],
   "note": "False: three rows with the value 11184814 have the float mean 11184813, so with gamma 1 and beta 0 the outputs are above 0.9 instead of 0. Proved: exact for batches of one row, and in general an error bound that grows with the value divided by sqrt(eps)."
  },
  {
   "property": "C118",
   "status": "proved",
   "theorems": [
    "DW.Props.FloatBatchNormP.running_near",
    "DW.Props.FloatBatchNormP.average_near",
    "DW.Props.FloatBatchNormP.variance_error"
   ],
   "note": "Inputs up to 2^50 and batches of up to 2^20 rows."
  },
  {
   "property": "C119",
   "status": "proved",
   "theorems": [
    "DW.Props.FloatBackP.gradients_near",
    "DW.Props.FloatBackP.backward_near",
    "DW.Props.FloatBackP.gradient_exact",
    "DW.Props.FloatBackP.gradients_agree",
    "DW.Props.FloatBackP.clear_smooth",
    "DW.Props.FloatBackP.backward_exists"
   ],
   "note": "Chains of layers, without branches. IsGradient says that a tensor gives the derivatives in every direction of the inputs and parameters; Clear is the condition on the inputs of the activations."
  },
  {
   "property": "C120",
   "status": "proved",
   "theorems": [
    "DW.Props.FloatBackP.deep_step",
    "DW.Props.FloatBackP.loss_gradient",
    "DW.Props.FloatBackP.step_follows",
    "DW.Props.FloatBackP.iteration_exists",
    "DW.Props.FloatBackP.classifier_deep"
   ],
   "note": "The conditions are the structure Deep, met by the example classifier_deep. IsLossGradient says that a tensor gives the derivatives of the exact loss in every direction."
  },
  {
   "property": "C121",
   "status": "proved",
   "theorems": [
    "DW.Props.FloatImageBackP.image_gradients_near",
    "DW.Props.FloatImageBackP.backward_near",
    "DW.Props.FloatImageBackP.back_gradient",
    "DW.Props.FloatImageBackP.curve",
    "DW.Props.FloatImageBackP.gather_adjoint",
    "DW.Props.FloatImageBackP.scattered",
    "DW.Props.FloatImageBackP.piled_close",
    "DW.Props.FloatImageBackP.gradients_exist"
   ],
   "note": "Without batch normalization. Max pooling fills with 2^-126 (C34), also in the exact function. The conditions at kinks are Smooth and ImgClear."
  },
  {
   "property": "C122",
   "status": "proved",
   "theorems": [
    "DW.Props.FloatImageBackP.image_step",
    "DW.Props.FloatImageBackP.loss_gradient",
    "DW.Props.FloatImageBackP.sgd_near",
    "DW.Props.FloatImageBackP.iteration_exists",
    "DW.Props.FloatImageBackP.classify_trainable"
   ],
   "note": "Without batch normalization. The conditions are the structure Trainable, met by the example classify_trainable. IsLossGradient says that a tensor gives the derivatives of the exact loss in every direction."
  },
  {
   "property": "C123",
   "status": "proved",
   "theorems": [
    "DW.Props.FloatBatchNormP.input_gradient",
    "DW.Props.FloatBatchNormP.parameter_gradients",
    "DW.Props.FloatBatchNormP.grads_exist",
    "DW.Props.FloatBatchNormP.centredGrad_change",
    "DW.Props.FloatBatchNormP.forward_stored",
    "DW.Props.FloatBatchNormP.column_near"
   ],
   "note": "The conditions are the structures Pass and Setting. Backprop is the specification of backpropagation used for the layers in exact arithmetic (C39)."
  },
  {
   "property": "C124",
   "status": "proved",
   "theorems": [
    "DW.Props.FloatImageOptimP.momentum_iteration",
    "DW.Props.FloatImageOptimP.adam_iteration",
    "DW.Props.FloatImageOptimP.momentum_training",
    "DW.Props.FloatImageOptimP.adam_training",
    "DW.Props.FloatImageOptimP.iterations_exist",
    "DW.Props.FloatImageOptimP.updated_near",
    "DW.Props.FloatOptimStepP.momentum_once",
    "DW.Props.FloatOptimStepP.adam_error_once",
    "DW.Props.FloatOptimStepP.step_change"
   ],
   "note": "The conditions are the structure Learnable of C122 and FitsEach for the step. Batch normalization and dropout are not among the layers."
  },
  {
   "property": "C125",
   "status": "proved",
   "theorems": [
    "DW.Props.FloatConvergeP.float_regret",
    "DW.Props.FloatConvergeP.float_converges",
    "DW.Props.FloatConvergeP.Course.within",
    "DW.Props.FloatConvergeP.Course.run_exists",
    "DW.Props.FloatConvergeP.gradient"
   ],
   "note": "The conditions are the structure Course: they concern the batches, the start and the parameters compared with, not the run. Met by the example course_example, where 40 iterations halve the loss."
  },
  {
   "property": "C126",
   "status": "proved",
   "theorems": [
    "DW.Props.FloatMeanP.printed_error",
    "DW.Props.FloatMeanP.validation",
    "DW.Props.FloatMeanP.validation_count",
    "DW.Props.FloatMeanP.printed_loss",
    "DW.Props.FloatMeanP.printed_empty"
   ],
   "note": "That 1 is printed only if all rows are right is not claimed beyond the number of rows in validation_count, where sums may be rounded up."
  },
  {
   "property": "C127",
   "status": "proved",
   "theorems": [
    "DW.Props.FloatValidateP.validated",
    "DW.Props.FloatValidateP.picks",
    "DW.Props.FloatValidateP.validation_exists"
   ],
   "note": "The networks and the bounds Fits' and after' are those of C115."
  },
  {
   "property": "C128",
   "status": "proved",
   "theorems": [
    "DW.Props.BenchP.shape_inj",
    "DW.Props.BenchP.shape_text"
   ],
   "note": "shape_text is the format of shapes that are not empty."
  },
  {
   "property": "C129",
   "status": "partial",
   "theorems": [
    "DW.Props.BenchP.table_partial",
    "DW.Props.BenchP.table_text",
    "DW.Props.BenchP.delimiter",
    "DW.Props.BenchP.header_partial",
    "DW.Props.BenchP.header_width",
    "DW.Props.BenchP.cell_short",
    "DW.Props.BenchP.row_length",
    "DW.Props.BenchP.rules_refuted",
    "DW.Props.BenchP.cell_long",
    "DW.Props.BenchP.loss_refuted",
    "DW.Props.BenchP.header_refuted",
    "DW.Props.BenchP.header_stream_refuted",
    "DW.Props.BenchP.header_long"
   ],
   "note": "The full property is false of the code: rules_refuted, cell_long, loss_refuted, header_refuted, header_stream_refuted and header_long are the cases."
  },
  {
   "property": "C130",
   "status": "partial",
   "theorems": [
    "DW.Props.BenchP.percent_partial",
    "DW.Props.BenchP.table_text",
    "DW.Props.BenchP.fixed_near",
    "DW.Props.BenchP.percent_refuted"
   ],
   "note": "False for times of 0 ms (percent_refuted). The operations of type double are taken to be exact."
  },
  {
   "property": "C131",
   "status": "partial",
   "theorems": [
    "DW.Props.BenchP.benchmark_last",
    "DW.Props.BenchP.benchmark_none",
    "DW.Props.BenchP.times_partial",
    "DW.Props.BenchP.lost_refuted",
    "DW.Props.BenchP.clock_refuted"
   ],
   "note": "The full property is false of the code: lost_refuted and clock_refuted are the cases. The loss and the accuracy of an epoch are the averages of C126."
  },
  {
   "property": "C132",
   "status": "partial",
   "theorems": [
    "DW.Props.ExceptionP.create_text",
    "DW.Props.ExceptionP.history_text",
    "DW.Props.ExceptionP.step_text",
    "DW.Props.ExceptionP.copy_text",
    "DW.Props.ExceptionP.failed_text",
    "DW.Props.ExceptionP.what_text",
    "DW.Props.ExceptionP.pointer_partial",
    "DW.Props.ExceptionP.pointer_refuted"
   ],
   "note": "The full property is false of the code: pointer_refuted is the case."
  },
  {
   "property": "C133",
   "status": "partial",
   "theorems": [
    "DW.Props.ProgressP.train_config",
    "DW.Props.ProgressP.test_config",
    "DW.Props.ProgressP.mode_rejected",
    "DW.Props.ProgressP.config_partial",
    "DW.Props.ProgressP.atoi_dec",
    "DW.Props.ProgressP.missing_refuted",
    "DW.Props.ProgressP.garbage_refuted"
   ],
   "note": "The full property is false of the code: missing_refuted and garbage_refuted are the cases."
  },
  {
   "property": "C134",
   "status": "partial",
   "theorems": [
    "DW.Props.ProgressP.progress",
    "DW.Props.ProgressP.progress_partial",
    "DW.Props.ProgressP.progress_refuted",
    "DW.Props.ProgressP.progress_zero",
    "DW.Props.ProgressP.progress_long"
   ],
   "note": "The full property is false of the code: progress_refuted, progress_zero and progress_long are the cases. The losses are exact; their averages in float are C126."
  },
  {
   "property": "C135",
   "status": "partial",
   "theorems": [
    "DW.Props.ImageResP.readFile_partial",
    "DW.Props.ImageResP.readAll_partial",
    "DW.Props.ImageResP.leak_refuted",
    "DW.Props.ImageResP.missing_refuted"
   ],
   "note": "The full property is false of the code: leak_refuted and missing_refuted are the cases."
  },
  {
   "property": "C136",
   "status": "partial",
   "theorems": [
    "DW.Props.BenchArgsP.config_eq",
    "DW.Props.BenchArgsP.epochs_partial",
    "DW.Props.BenchArgsP.epochs_refuted",
    "DW.Props.BenchArgsP.missing_refuted"
   ],
   "note": "The full property is false of the code: epochs_refuted and missing_refuted are the cases."
  },
  {
   "property": "C137",
   "status": "partial",
   "theorems": [
    "DW.Props.BenchInfoP.dataset_inj",
    "DW.Props.BenchInfoP.dataset_text",
    "DW.Props.BenchInfoP.epoch_partial",
    "DW.Props.BenchInfoP.epoch_refuted"
   ],
   "note": "The full property is false of the code: epoch_refuted is the case. How a float is written is a parameter."
  }
 ]
}