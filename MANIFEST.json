{
 "claims": [
  {
   "property": "C01",
   "status": "proved",
   "theorems": [
    "Zfit.Coord.reorder_chain_keeps_pairs",
    "Zfit.Coord.last_obs_request_decides_order",
    "Zfit.Coord.last_axes_request_decides_order",
    "Zfit.Coord.reorder_chain_loses_nothing",
    "Zfit.Sp.limits_travel",
    "Zfit.Sp.limits_by_obs",
    "Zfit.Sp.limits_of_other_kind_refused",
    "Zfit.Sp.autofill_overwrite_violated",
    "Zfit.Sp.subspace_without_obs_violated"
   ],
   "note": "Coordinates and Space, any chain of requests; for Space autofill with overwrite=True is excluded (it breaks the property, witness proved)."
  },
  {
   "property": "C02",
   "status": "proved",
   "theorems": [
    "Zfit.Coord.reorderX_by_obs",
    "Zfit.Coord.reorderX_for_func",
    "Zfit.Coord.reorderX_inverse",
    "Zfit.Coord.reorderX_missing_obs"
   ],
   "note": ""
  },
  {
   "property": "C03",
   "status": "proved",
   "theorems": [
    "Zfit.Coord.withObs_decision",
    "Zfit.Coord.withObs_none_decision",
    "Zfit.Coord.withAxes_decision",
    "Zfit.Coord.withAxes_new_decision"
   ],
   "note": ""
  },
  {
   "property": "C04",
   "status": "partial",
   "theorems": [
    "Zfit.Coord.eq_refl",
    "Zfit.Coord.eq_symm",
    "Zfit.Coord.eq_hash",
    "Zfit.Coord.eq_trans_partial",
    "Zfit.Coord.eq_not_transitive_violated",
    "Zfit.Sp.space_eq_iff",
    "Zfit.Sp.space_eq_refl_symm",
    "Zfit.Sp.reordered_is_equal",
    "Zfit.Sp.space_eq_transitive_partial",
    "Zfit.Sp.space_eq_without_limits",
    "Zfit.Sp.space_eq_transitive_violated",
    "Zfit.Sp.space_hash_violated",
    "Zfit.Sp.space_eq_error_violated"
   ],
   "note": "Equality is characterised exactly; reflexivity and symmetry hold. Transitivity and hash compatibility fail because limits are compared with a tolerance: proved with exact limits, refuted with witnesses otherwise."
  },
  {
   "property": "C05",
   "status": "proved",
   "theorems": [
    "Zfit.Sp.inside_iff_in_box",
    "Zfit.Sp.filter_frame_by_name",
    "Zfit.Sp.inside_wrong_shape",
    "Zfit.Sp.inside_flat_input",
    "Zfit.Sp.filter_without_limits",
    "Zfit.Sp.inside_guarantee_shape_violated"
   ],
   "note": ""
  },
  {
   "property": "C06",
   "status": "proved",
   "theorems": [
    "Zfit.Sp.add_without_limits",
    "Zfit.Sp.union_of_boxes",
    "Zfit.Sp.union_by_axes",
    "Zfit.Sp.add_one",
    "Zfit.Sp.add_errors",
    "Zfit.Sp.mixed_coordinates_violated",
    "Zfit.Sp.union_keeps_stale_axes_violated"
   ],
   "note": "Proved for spaces that all have observables and for spaces that have axes only (any nesting); if only some leaves have observables the code does not reorder (witness proved)."
  },
  {
   "property": "C07",
   "status": "partial",
   "theorems": [
    "Zfit.Sp.combine_limits",
    "Zfit.Sp.combine_decision_partial",
    "Zfit.Sp.combine_conflict_undetected_violated",
    "Zfit.Sp.combine_keyerror_violated"
   ],
   "note": "Spaces named by observables. The product of unions is C213; the axes-only branch is not modelled. A conflict between three spaces can go undetected or surface as KeyError (witnesses)."
  },
  {
   "property": "C08",
   "status": "partial",
   "theorems": [
    "Zfit.Dim.groups_connected",
    "Zfit.Dim.groups_are_components_partial",
    "Zfit.Dim.bridge_leaves_overlap_violated",
    "Zfit.Dim.bridge_loses_objects_violated",
    "Zfit.Dim.same_obs_iff",
    "Zfit.Dim.same_obs_self_iff",
    "Zfit.Dim.same_obs_self_asymmetric_violated"
   ],
   "note": "Full partition into connected components proved whenever no object bridges earlier separate groups; refuted otherwise."
  },
  {
   "property": "C09",
   "status": "partial",
   "theorems": [
    "Zfit.Dim.overlap_sound_partial",
    "Zfit.Dim.overlap_complete_partial",
    "Zfit.Dim.overlap_order_violated",
    "Zfit.Dim.overlap_is_per_observable_violated",
    "Zfit.Dim.exact_match_allowed"
   ],
   "note": "Sound; complete up to the tolerance except when the later interval contains the earlier one, where the code misses the overlap (witness)."
  },
  {
   "property": "C10",
   "status": "proved",
   "theorems": [
    "Zfit.Par.value_within_limits",
    "Zfit.Par.stored_within_tolerance",
    "Zfit.Par.reversed_limits_violated"
   ],
   "note": "For ordered limits; with lower > upper the value exceeds the upper limit (witness)."
  },
  {
   "property": "C11",
   "status": "proved",
   "theorems": [
    "Zfit.Par.set_value_decision",
    "Zfit.Par.set_value_within",
    "Zfit.Par.make_decision",
    "Zfit.Par.graph_mode_stricter",
    "Zfit.Par.equal_limits_reject_violated"
   ],
   "note": "Eager mode, proper limits (lower < upper); graph mode compared. Equal limits reject everything (witness)."
  },
  {
   "property": "C12",
   "status": "proved",
   "theorems": [
    "Zfit.Par.with_block_restores",
    "Zfit.Par.temporary_settings_undone",
    "Zfit.Par.with_block_entry_leaks_violated",
    "Zfit.Par.restore_after_limit_change_violated"
   ],
   "note": "Single parameters and set_values blocks that are entered. A set_values block whose entry is rejected leaks (witness), see C13."
  },
  {
   "property": "C13",
   "status": "partial",
   "theorems": [
    "Zfit.Par.set_values_exact_partial",
    "Zfit.Par.set_values_raises_iff",
    "Zfit.Par.set_one_atomic",
    "Zfit.Par.set_values_not_atomic_violated"
   ],
   "note": "Not atomic: exactly the assignments before the first rejected one are made (proved), witness given."
  },
  {
   "property": "C14",
   "status": "proved",
   "theorems": [
    "Zfit.Par.non_parameter_refused",
    "Zfit.Par.values_by_position",
    "Zfit.Par.values_by_mapping",
    "Zfit.Par.values_by_result",
    "Zfit.Par.values_from_result_alone",
    "Zfit.Par.values_from_mapping_alone",
    "Zfit.Par.rejected_before_any_change",
    "Zfit.Par.assign_values_effect",
    "Zfit.Par.result_matches_other_object_violated",
    "Zfit.Par.empty_params_accept_anything_violated"
   ],
   "note": "A result is matched by name, not by object (witness)."
  },
  {
   "property": "C15",
   "status": "partial",
   "theorems": [
    "Zfit.Par.model_accepted_iff",
    "Zfit.Par.independent_names_unique",
    "Zfit.Par.rejected_only_for_names",
    "Zfit.Par.loss_accepted_iff",
    "Zfit.Par.nested_composed_same_name_violated",
    "Zfit.Par.composed_same_name_as_dependency_violated",
    "Zfit.Par.daughter_yields_same_name_violated"
   ],
   "note": "Proved for independent parameters in any nesting, and exactly characterised; composed parameters nested in composed ones and daughters' yields escape the check (witnesses)."
  },
  {
   "property": "C16",
   "status": "proved",
   "theorems": [
    "Zfit.Par.get_params_independent",
    "Zfit.Par.get_params_exact",
    "Zfit.Par.loss_get_params",
    "Zfit.Par.parameter_get_params",
    "Zfit.Par.parameter_get_params_independent"
   ],
   "note": "The autograd argument is C122."
  },
  {
   "property": "C17",
   "status": "proved",
   "theorems": [
    "Zfit.Dat.cut_keeps_exactly_inside",
    "Zfit.Dat.recreate_is_identity",
    "Zfit.Dat.samplesize_of_cut",
    "Zfit.Dat.wrong_number_of_weights"
   ],
   "note": "Eager mode. For data from columns see C18."
  },
  {
   "property": "C18",
   "status": "partial",
   "theorems": [
    "Zfit.Dat.columns_cut",
    "Zfit.Dat.columns_same_as_array_partial",
    "Zfit.Dat.columns_differ_from_array_violated"
   ],
   "note": "Holds for spaces with one set of limits and for one-dimensional ones; refuted for several limits in several dimensions, where columns are cut one by one."
  },
  {
   "property": "C19",
   "status": "proved",
   "theorems": [
    "Zfit.Dat.views_show_original_columns",
    "Zfit.Dat.views_of_columns",
    "Zfit.Dat.view_order",
    "Zfit.Dat.view_in_new_space",
    "Zfit.Dat.view_unknown_observable"
   ],
   "note": ""
  },
  {
   "property": "C20",
   "status": "partial",
   "theorems": [
    "Zfit.Dat.concat_index_events",
    "Zfit.Dat.concat_index_errors",
    "Zfit.Dat.concat_limits_violated",
    "Zfit.Dat.concat_obs_events",
    "Zfit.Dat.concat_obs_errors",
    "Zfit.Dat.concat_obs_columns_violated"
   ],
   "note": "Proved for any list of datasets; if all datasets are held as columns, concatenation along observables raises AttributeError (witness). The obs argument is C307."
  },
  {
   "property": "C21",
   "status": "partial",
   "theorems": [
    "Zfit.Dat.sampler_resample_weights_partial",
    "Zfit.Dat.sampler_update_partial",
    "Zfit.Dat.sampler_resample_partial",
    "Zfit.Dat.sampler_update_not_atomic_violated",
    "Zfit.Dat.sampler_weights_unchecked_violated"
   ],
   "note": "Atomic only if weights are given exactly when the sampler has weights; refuted otherwise."
  },
  {
   "property": "C22",
   "status": "partial",
   "theorems": [
    "Zfit.Bin.with_obs_keeps_contents_partial",
    "Zfit.Bin.with_obs_two_axes_partial",
    "Zfit.Bin.with_obs_applies_inverse",
    "Zfit.Bin.with_obs_subset_raises",
    "Zfit.Bin.with_obs_cycle_violated",
    "Zfit.Bin.with_obs_cycle_raises_violated"
   ],
   "note": "Holds for permutations that exchange disjoint pairs, so for up to two axes; refuted for cyclic permutations of three axes, where the inverse permutation is applied."
  },
  {
   "property": "C23",
   "status": "partial",
   "theorems": [
    "Zfit.Bin.binning_contents_partial",
    "Zfit.Bin.binning_wrong_number",
    "Zfit.Bin.binindex_by_name",
    "Zfit.Bin.binning_order_violated"
   ],
   "note": "Holds if the data has the observables of the binned space in the same order; refuted otherwise. Bin indices are always by name."
  },
  {
   "property": "C24",
   "status": "proved",
   "theorems": [
    "Zfit.Bin.linear_binning_conserves",
    "Zfit.Bin.binning_total",
    "Zfit.Bin.binning_unweighted",
    "Zfit.Bin.binning_below_raises"
   ],
   "note": "Over the rationals; grid as produced by linspace."
  },
  {
   "property": "C25",
   "status": "partial",
   "theorems": [
    "Zfit.Functor.sum_fracs_complete",
    "Zfit.Functor.sum_fracs_as_given",
    "Zfit.Functor.sum_fracs_extended",
    "Zfit.Functor.sum_rejected_iff",
    "Zfit.Functor.sum_honest",
    "Zfit.Functor.sum_pdf_value",
    "Zfit.Functor.sum_ext_pdf_value",
    "Zfit.Functor.sum_not_normalised_violated",
    "Zfit.Functor.sum_yield_spec"
   ],
   "note": "n given fractions are used as they are: if they do not sum to one the sum is not normalised (sum_not_normalised_violated)"
  },
  {
   "property": "C26",
   "status": "partial",
   "theorems": [
    "Zfit.Functor.product_obs_ordered_union",
    "Zfit.Functor.product_value",
    "Zfit.Functor.groups_partition",
    "Zfit.Functor.product_integral_factorises",
    "Zfit.Functor.product_of_more",
    "Zfit.Functor.product_of_one_violated"
   ],
   "note": "a product of a single factor cannot be evaluated: product_of_one_violated"
  },
  {
   "property": "C27",
   "status": "partial",
   "theorems": [
    "Zfit.Functor.truncated_value",
    "Zfit.Functor.truncated_limits_accepted_iff",
    "Zfit.Functor.truncated_integral_partial",
    "Zfit.Functor.truncated_yield_partial",
    "Zfit.Functor.truncated_integral_violated"
   ],
   "note": "integral and yield for limits inside the space, one observable; limits beyond the space are accepted and give a wrong integral (truncated_integral_violated)"
  },
  {
   "property": "C28",
   "status": "partial",
   "theorems": [
    "Zfit.Functor.cached_pdf_partial",
    "Zfit.Functor.cached_integrate_partial",
    "Zfit.Functor.cached_pdf_norm_violated",
    "Zfit.Functor.cached_integrate_norm_violated",
    "Zfit.Functor.cached_pdf_fixed_parameter_violated",
    "Zfit.Functor.cached_pdf_first_call_violated",
    "Zfit.Functor.cached_pdf_other_size_violated",
    "Zfit.Functor.cached_other_length",
    "Zfit.Functor.cached_pdf_single_event_violated"
   ],
   "note": "holds up to the tolerance if all parameters float, data sizes and normalisation do not change; the violated theorems show a stale or failing answer otherwise"
  },
  {
   "property": "C29",
   "status": "partial",
   "theorems": [
    "Zfit.Functor.conditional_pdf_restores_partial",
    "Zfit.Functor.conditional_pdf_value",
    "Zfit.Functor.conditional_sample_rows",
    "Zfit.Functor.conditional_integrate_violated",
    "Zfit.Functor.conditional_sample_violated"
   ],
   "note": "pdf restores, integrate and sample leave the last event values in the parameters"
  },
  {
   "property": "C30",
   "status": "proved",
   "theorems": [
    "Zfit.Pdf.integrate_value",
    "Zfit.Pdf.integrate_additive",
    "Zfit.Pdf.integrate_norm_is_one",
    "Zfit.Pdf.pdf_value",
    "Zfit.Pdf.pdf_is_normalised_by_integral"
   ],
   "note": "for every pdf whose hooks answer honestly (Honest), whichever subset of hooks it overrides; integrals are an arbitrary additive set function on pieces"
  },
  {
   "property": "C31",
   "status": "partial",
   "theorems": [
    "Zfit.Pdf.log_pdf_value_partial",
    "Zfit.Pdf.log_pdf_violated"
   ],
   "note": "holds if _pdf is not overridden with a decorator refusing the norm; for every pdf that does so, log_pdf subtracts the integral instead of its logarithm (log_pdf_violated)"
  },
  {
   "property": "C32",
   "status": "partial",
   "theorems": [
    "Zfit.Pdf.extended_scales",
    "Zfit.Pdf.not_extended_raises",
    "Zfit.Pdf.extended_only_once",
    "Zfit.Pdf.second_yield_refused",
    "Zfit.Pdf.create_extended_new",
    "Zfit.Pdf.set_yield_sets",
    "Zfit.Pdf.refused_yield_stays_violated"
   ],
   "note": "a rejected yield (duplicate name) stays set on the pdf: refused_yield_stays_violated"
  },
  {
   "property": "C33",
   "status": "proved",
   "theorems": [
    "Zfit.Functor.multiply_builds",
    "Zfit.Functor.multiply_rejects",
    "Zfit.Functor.add_decides",
    "Zfit.Functor.multiply_pdf_swap",
    "Zfit.Functor.scaled_func_params",
    "Zfit.Functor.scaled_func_loses_parameter_violated"
   ],
   "note": "values of the resulting functions included; a separate finding: param*func loses the parameter from get_params if an argument of the function has its name"
  },
  {
   "property": "C34",
   "status": "partial",
   "theorems": [
    "Zfit.BinPdf.histogram_normalised",
    "Zfit.BinPdf.histogram_normalised_over",
    "Zfit.BinPdf.template_normalised",
    "Zfit.BinPdf.modified_normalised_partial",
    "Zfit.BinPdf.scaled_bin_by_bin",
    "Zfit.BinPdf.sum_normalised",
    "Zfit.BinPdf.sum_counts_partial",
    "Zfit.BinPdf.sum_extended_bins_partial",
    "Zfit.BinPdf.histogram_ext_pdf_norm_violated",
    "Zfit.BinPdf.modified_not_extended_violated",
    "Zfit.BinPdf.sum_extended_violated",
    "Zfit.BinPdf.sum_yield_ignored_violated",
    "Zfit.BinPdf.template_density_any_norm"
   ],
   "note": "histograms, templates and sums with complete fractions are normalised; the violated theorems: ext_pdf over another norm range, modifiers of a not extended pdf, counts of a sum with its own yield"
  },
  {
   "property": "C35",
   "status": "partial",
   "theorems": [
    "Zfit.BinPdf.binned_integral_partial",
    "Zfit.BinPdf.binned_integral_whole",
    "Zfit.BinPdf.binned_integral_adjacent_partial",
    "Zfit.BinPdf.binned_integral_outside_violated"
   ],
   "note": "any number of axes; limits that do not touch the binning give a negative result instead of 0 (binned_integral_outside_violated)"
  },
  {
   "property": "C36",
   "status": "partial",
   "theorems": [
    "Zfit.BinPdf.binned_pdf_at_points",
    "Zfit.BinPdf.binned_log_pdf_partial",
    "Zfit.BinPdf.binned_log_pdf_outside_violated"
   ],
   "note": "the density is as stated; the logarithm is 0 instead of minus infinity at every point outside"
  },
  {
   "property": "C37",
   "status": "partial",
   "theorems": [
    "Zfit.BinPdf.binned_hooks_honoured",
    "Zfit.BinPdf.binned_integration_hooks_honoured",
    "Zfit.BinPdf.binned_hook_errors_propagate",
    "Zfit.BinPdf.only_rel_counts",
    "Zfit.BinPdf.only_rel_counts_unnormalised",
    "Zfit.BinPdf.only_counts",
    "Zfit.BinPdf.only_pdf_partial",
    "Zfit.BinPdf.integrate_pieces",
    "Zfit.BinPdf.counts_needs_yield",
    "Zfit.BinPdf.sample_multinomial",
    "Zfit.BinPdf.create_sampler_params_partial",
    "Zfit.BinPdf.only_pdf_counts_violated",
    "Zfit.BinPdf.only_unnormalized_pdf_violated",
    "Zfit.BinPdf.ext_integrate_pieces_violated",
    "Zfit.BinPdf.sample_hook_violated",
    "Zfit.BinPdf.create_sampler_params_violated"
   ],
   "note": "array and integration hooks are honoured; a _sample hook is not, ext_integrate of pieces drops the yield, create_sampler(params=...) raises with the default fixed_params"
  },
  {
   "property": "C38",
   "status": "partial",
   "theorems": [
    "Zfit.Loss.loss_add_value",
    "Zfit.Loss.loss_add_all_value",
    "Zfit.Loss.loss_add_rejects",
    "Zfit.Loss.simple_loss_add_value_partial",
    "Zfit.Loss.loss_add_options_violated",
    "Zfit.Loss.simple_loss_add_violated"
   ],
   "note": "The full value is additive for every chain of losses of one class (for a chi2: with variances from the data). Refuted for a chi2 with errors=\"expected\" (options are lost) and for SimpleLoss (evaluation raises unless all names have two characters)."
  },
  {
   "property": "C39",
   "status": "proved",
   "theorems": [
    "Zfit.Loss.loss_full_value",
    "Zfit.Loss.loss_offset_history",
    "Zfit.Loss.loss_offset_difference"
   ],
   "note": "For all six loss classes and any history of evaluations."
  },
  {
   "property": "C40",
   "status": "partial",
   "theorems": [
    "Zfit.Loss.loss_pairs_partial",
    "Zfit.Loss.loss_rejects_ranges_partial",
    "Zfit.Loss.nll_value",
    "Zfit.Loss.extended_nll_value",
    "Zfit.Loss.loss_length_mismatch_violated"
   ],
   "note": "Pairing by position is proved for equal numbers; refuted that a mismatch is rejected: the longer list is silently cut."
  },
  {
   "property": "C41",
   "status": "partial",
   "theorems": [
    "Zfit.Loss.chi2_value_partial",
    "Zfit.Loss.chi2_rejects_partial",
    "Zfit.Loss.chi2_invalid_method",
    "Zfit.Loss.chi2_expected_violated",
    "Zfit.Loss.chi2_retry_violated"
   ],
   "note": "Proved for variances from the data; with errors=\"expected\" the square root of the expected count is used (refuted); the rejection of non-positive variances only happens once (refuted for a repeated evaluation)."
  },
  {
   "property": "C42",
   "status": "proved",
   "theorems": [
    "Zfit.Sample.accept_reject_exact",
    "Zfit.Sample.accept_reject_inside",
    "Zfit.Sample.accept_reject_never_raises",
    "Zfit.Sample.accept_reject_envelope"
   ],
   "note": "For every random stream, proposal factory and binomial draw; EventSpace is not modelled; termination is not claimed."
  },
  {
   "property": "C43",
   "status": "proved",
   "theorems": [
    "Zfit.Sample.uniform_split",
    "Zfit.Sample.uniform_sample_exact",
    "Zfit.Sample.limits_sample_exact",
    "Zfit.Sample.limits_sample_errors"
   ],
   "note": "Exact numbers; the multinomial draw is any vector that adds up to n."
  },
  {
   "property": "C44",
   "status": "partial",
   "theorems": [
    "Zfit.Run.cache_bounded",
    "Zfit.Run.cache_answers_partial",
    "Zfit.Run.cache_size_rejects",
    "Zfit.Run.object_reset_violated",
    "Zfit.Run.broken_call_disables"
   ],
   "note": "Bounded size and answers by the right function are proved; an object-level reset never reaches the cache of compiled functions because the stored holder is not the registered one (refuted)."
  },
  {
   "property": "C45",
   "status": "proved",
   "theorems": [
    "Zfit.Run.reset_reaches_dependents",
    "Zfit.Run.register_spec",
    "Zfit.Run.reset_cycle_fails"
   ],
   "note": "Every acyclic graph of dependencies, any number of objects."
  },
  {
   "property": "C46",
   "status": "partial",
   "theorems": [
    "Zfit.Run.graph_mode_restored_partial",
    "Zfit.Run.autograd_mode_restored",
    "Zfit.Run.body_error_kept",
    "Zfit.Run.new_kind_follows_mode",
    "Zfit.Run.new_kind_dict",
    "Zfit.Run.dict_mode_violated",
    "Zfit.Run.bad_mode_violated"
   ],
   "note": "Restored for the modes True, False and auto with arbitrary code in the block; refuted when a dictionary mode is active before and for the backend flag after an invalid mode."
  },
  {
   "property": "C47",
   "status": "partial",
   "theorems": [
    "Zfit.Run.cpus_never_shared",
    "Zfit.Run.cpus_given_back_partial",
    "Zfit.Run.cpus_taken",
    "Zfit.Run.cpus_lost_violated"
   ],
   "note": "For every schedule; CPUs of a block left by an exception are lost (refuted)."
  },
  {
   "property": "C48",
   "status": "partial",
   "theorems": [
    "Zfit.Min.budget_respected_partial",
    "Zfit.Min.budget_used_up",
    "Zfit.Min.later_requests_rejected",
    "Zfit.Min.ignore_exception_violated"
   ],
   "note": "Proved for every history of requests that does not leave ignore_maxiter by an exception; after such an exception the budget is ignored for ever (ignore_exception_violated)."
  },
  {
   "property": "C49",
   "status": "partial",
   "theorems": [
    "Zfit.Min.nan_pushback_partial",
    "Zfit.Min.nan_pushback_increasing",
    "Zfit.Min.valid_resets",
    "Zfit.Min.nan_at_start",
    "Zfit.Min.nan_verbose_violated"
   ],
   "note": "Proved for quiet minimisers and an unlimited budget; with verbosity the NaN branch raises before the penalty is used (nan_verbose_violated)."
  },
  {
   "property": "C50",
   "status": "partial",
   "theorems": [
    "Zfit.Min.minimize_leaves_no_trace_partial",
    "Zfit.Min.minimize_reusable",
    "Zfit.Min.minimize_answer",
    "Zfit.Min.minimize_state_violated",
    "Zfit.Min.minimize_params_violated",
    "Zfit.Min.minimize_init_violated",
    "Zfit.Min.minimize_none_violated",
    "Zfit.Min.minimize_no_init_argument_violated"
   ],
   "note": "A minimiser can always be used again; parameters stay as the backend left them after a failure and after given initial values (refuted), and a backend that exceeds its budget gives None (refuted)."
  },
  {
   "property": "C51",
   "status": "proved",
   "theorems": [
    "Zfit.Min.step_minimizer_terminates",
    "Zfit.Min.step_minimizer_result",
    "Zfit.Min.step_minimizer_errors"
   ],
   "note": "For every step function, criterion and loss sequence."
  },
  {
   "property": "C52",
   "status": "partial",
   "theorems": [
    "Zfit.Res.valid_result_partial",
    "Zfit.Res.valid_result_library",
    "Zfit.Res.valid_result_converse",
    "Zfit.Res.valid_library_converse",
    "Zfit.Res.new_minimum_for_ever",
    "Zfit.Res.valid_at_limit_violated",
    "Zfit.Res.invalid_inside_violated"
   ],
   "note": "All constructors and histories; \"at limit\" is judged by the current values of the parameters, not by the fitted ones (refuted)."
  },
  {
   "property": "C53",
   "status": "proved",
   "theorems": [
    "Zfit.Res.matrix_to_dict_entries",
    "Zfit.Res.matrix_to_dict_foreign",
    "Zfit.Res.matrix_to_dict_symmetric",
    "Zfit.Res.matrix_round_trip",
    "Zfit.Res.matrix_none_round_trip",
    "Zfit.Res.covariance_of_subset"
   ],
   "note": "Any number of parameters, any sub-list of parameters."
  },
  {
   "property": "C54",
   "status": "partial",
   "theorems": [
    "Zfit.Res.covariance_as_asked_partial",
    "Zfit.Res.covariance_unknown_method",
    "Zfit.Res.hesse_rejects",
    "Zfit.Res.covariance_correction_violated",
    "Zfit.Res.hesse_correction_violated",
    "Zfit.Res.hesse_after_errors_violated"
   ],
   "note": "Any history of calls; holds for unweighted data or one correction per method; refuted otherwise, as the cache ignores the correction."
  },
  {
   "property": "C55",
   "status": "partial",
   "theorems": [
    "Zfit.Res.with_result_restores_partial",
    "Zfit.Res.with_result_sets",
    "Zfit.Res.result_blocks_undone",
    "Zfit.Res.with_result_entry_violated",
    "Zfit.Res.with_result_stale_violated"
   ],
   "note": "Any nesting, for results whose values are acceptable; refuted for a result with a value beyond the limits."
  },
  {
   "property": "C56",
   "status": "partial",
   "theorems": [
    "Zfit.Res.errors_settings",
    "Zfit.Res.errors_as_requested_partial",
    "Zfit.Res.errors_both_rejected",
    "Zfit.Res.errors_sigma_dropped_violated"
   ],
   "note": "Any number of new minima; sigma and the covariance method are dropped and the tolerance shrinks with every new minimum (refuted)."
  },
  {
   "property": "C57",
   "status": "proved",
   "theorems": [
    "Zfit.Res.correlation_bounded",
    "Zfit.Res.correlation_recovers"
   ],
   "note": "Real matrices of any size."
  },
  {
   "property": "C58",
   "status": "proved",
   "theorems": [
    "Zfit.Num.points_sanitized",
    "Zfit.Num.simpson_cubic_exact",
    "Zfit.Num.simpson_cubic_exact_pieces",
    "Zfit.Num.simpson_linear_nonneg"
   ],
   "note": "Any number of points, any cubic, any interval."
  },
  {
   "property": "C59",
   "status": "proved",
   "theorems": [
    "Zfit.Num.mc_terminates",
    "Zfit.Num.mc_average",
    "Zfit.Num.mc_vectorizable",
    "Zfit.Num.mc_chunked",
    "Zfit.Num.mc_chunks",
    "Zfit.Num.mc_no_budget"
   ],
   "note": "Any integrand, any stream of batches."
  },
  {
   "property": "C60",
   "status": "partial",
   "theorems": [
    "Zfit.Num.analytic_choice_partial",
    "Zfit.Num.any_matches",
    "Zfit.Num.any_axis_matches",
    "Zfit.Num.analytic_any",
    "Zfit.Num.analytic_cover_violated",
    "Zfit.Num.analytic_any_replaced_violated",
    "Zfit.Num.same_limits_iff"
   ],
   "note": "Choice proved for the limits the code considers matching; refuted: covering limits with another lower edge are not found, and a range-independent integral can be replaced."
  },
  {
   "property": "C61",
   "status": "partial",
   "theorems": [
    "Zfit.Num.polynomial_integral",
    "Zfit.Num.polynomial_integral_unscaled",
    "Zfit.Num.polynomial_integral_unscaled_partial",
    "Zfit.Num.polynomial_integral_adjacent",
    "Zfit.Num.polynomial_integral_violated",
    "Zfit.Num.bernstein_integral",
    "Zfit.Num.bernstein_integral_violated"
   ],
   "note": "Every degree and coefficients with scaling; refuted with apply_scaling=False (off by half the width of the space)."
  },
  {
   "property": "C62",
   "status": "proved",
   "theorems": [
    "Zfit.Num.casteljau_value",
    "Zfit.Num.bernstein_bounds",
    "Zfit.Num.bernstein_nonneg",
    "Zfit.Num.bernstein_ends"
   ],
   "note": "Every degree."
  },
  {
   "property": "C63",
   "status": "partial",
   "theorems": [
    "Zfit.Num.exponential_pdf",
    "Zfit.Num.exponential_integrate",
    "Zfit.Num.exponential_normalised",
    "Zfit.Num.shift_restored_partial",
    "Zfit.Num.exponential_unnormalised_partial",
    "Zfit.Num.shift_restored_violated",
    "Zfit.Num.exponential_zero_violated"
   ],
   "note": "Density and integral proved for lambda != 0; the shift is not restored when the call raises, and lambda = 0 gives a zero integral (refuted)."
  },
  {
   "property": "C64",
   "status": "partial",
   "theorems": [
    "Zfit.Io.hs3_round_trip_partial",
    "Zfit.Io.hs3_name_collision_violated",
    "Zfit.Io.hs3_fixed_violated"
   ],
   "note": "Every nested structure in which no other string equals a parameter name; refuted for colliding names and fixed parameters. The parameters of composed parameters are not modelled."
  },
  {
   "property": "C65",
   "status": "proved",
   "theorems": [
    "Zfit.Io.set_seed_reproducible",
    "Zfit.Io.set_seed_returned",
    "Zfit.Io.set_seed_explicit",
    "Zfit.Io.set_seed_rerun",
    "Zfit.Io.set_seed_restore",
    "Zfit.Io.set_seed_chain"
   ],
   "note": "Any derivation function, any flags, any earlier state."
  },
  {
   "property": "C66",
   "status": "partial",
   "theorems": [
    "Zfit.Io.options_applied_partial",
    "Zfit.Io.options_rejected",
    "Zfit.Io.options_unchanged_partial",
    "Zfit.Io.options_not_atomic_violated",
    "Zfit.Io.options_number_violated"
   ],
   "note": "Applied completely without a number for draws_per_dim; refuted: a number always raises, and a bad tolerance leaves the other options changed."
  },
  {
   "property": "C67",
   "status": "proved",
   "theorems": [
    "Zfit.Min.tol_factor_bounds",
    "Zfit.Min.tolerances_shrink"
   ],
   "note": "Over the reals; any number of retries."
  },
  {
   "property": "C68",
   "status": "proved",
   "theorems": [
    "Zfit.Bin.unbinned_rows_are_centres",
    "Zfit.Bin.unbinned_and_back"
   ],
   "note": ""
  },
  {
   "property": "C69",
   "status": "partial",
   "theorems": [
    "Zfit.Functor.sum_copy_partial",
    "Zfit.Functor.sum_copy_violated",
    "Zfit.Functor.sum_copy_drops_yield_violated"
   ],
   "note": "copy loses the yield of an extended sum; fractions given completely are kept"
  },
  {
   "property": "C70",
   "status": "partial",
   "theorems": [
    "Zfit.Res.errors_level_partial",
    "Zfit.Res.errors_sigma_is_root",
    "Zfit.Res.errors_sigma_violated"
   ],
   "note": "Levels are used as given; sigma is refuted: errors(sigma=s) uses the square root of s."
  },
  {
   "property": "C71",
   "status": "partial",
   "theorems": [
    "Zfit.Num.space_le_partial",
    "Zfit.Num.space_le_same_lower_partial",
    "Zfit.Num.space_le_violated"
   ],
   "note": "Exactly characterised; holds for equal lower edges, refuted otherwise."
  },
  {
   "property": "C72",
   "status": "proved",
   "theorems": [
    "Zfit.Num.polynomial_pdf",
    "Zfit.Num.polynomial_scaling",
    "Zfit.Num.chebyshev_basis",
    "Zfit.Num.chebyshev2_basis",
    "Zfit.Num.other_bases"
   ],
   "note": "Every degree."
  },
  {
   "property": "C73",
   "status": "partial",
   "theorems": [
    "Zfit.Phys.crystalball_integral_partial",
    "Zfit.Phys.generalized_crystalball_integral_partial",
    "Zfit.Phys.double_crystalball_integral_partial",
    "Zfit.Phys.gaussexptail_integral",
    "Zfit.Phys.generalized_gaussexptail_integral",
    "Zfit.Phys.crystalball_documented",
    "Zfit.Phys.crystalball_integral_near_one_violated",
    "Zfit.Phys.crystalball_integral_negative_sigma_violated"
   ],
   "note": "Proved over the reals with the error function defined by its integral. For the Crystal Ball family the exponents closer than 1e-5 to (but not equal to) one are excluded: there the code takes the n = 1 formula, and the equality is refuted. Negative widths are refuted too (the integral takes |sigma|, the shape does not)."
  },
  {
   "property": "C74",
   "status": "proved",
   "theorems": [
    "Zfit.Phys.crystalball_peak",
    "Zfit.Phys.double_crystalball_peak",
    "Zfit.Phys.generalized_crystalball_peak",
    "Zfit.Phys.gaussexptail_peak",
    "Zfit.Phys.generalized_gaussexptail_peak"
   ],
   "note": "Over the reals."
  },
  {
   "property": "C75",
   "status": "partial",
   "theorems": [
    "Zfit.Root.brentq_bracketed_partial",
    "Zfit.Root.brentq_gives_up_only_near_sign_change",
    "Zfit.Root.brentq_near_root_partial",
    "Zfit.Root.brentq_no_sign_change_violated"
   ],
   "note": "Proved for every bracket with a sign change (or a zero at an end). Without a sign change the search reports the root 0 with value 0 as converged, for every function and bracket: refuted by brentq_no_sign_change_violated."
  },
  {
   "property": "C76",
   "status": "partial",
   "theorems": [
    "Zfit.Root.findRoot_solves_partial",
    "Zfit.Root.findRoot_first_converged",
    "Zfit.Root.isj_bandwidth_zero_violated",
    "Zfit.Root.rightBracket_small",
    "Zfit.Root.rightBracket_spec"
   ],
   "note": "Proved when the fixed-point function changes sign within the first bracket; if t_opt exceeds the first bracket (always the case in practice for at most 50 distinct points, where the bracket ends at 1e-11) the bandwidth is zero: refuted by isj_bandwidth_zero_violated."
  },
  {
   "property": "C77",
   "status": "partial",
   "theorems": [
    "Zfit.Lm.lm_never_worse_partial",
    "Zfit.Lm.lm_zero_iterations",
    "Zfit.Lm.minEv_honest",
    "Zfit.Lm.minEv_first_nan",
    "Zfit.Lm.lm_nan_raises_damping",
    "Zfit.Lm.lm_step_descends",
    "Zfit.Lm.lm_no_step_violated",
    "Zfit.Lm.lm_accepts_nan_violated",
    "Zfit.Lm.judge_keeps"
   ],
   "note": "Proved for every loss that is not NaN where it is evaluated. Refuted for losses with NaN regions (the value made up for a NaN can be accepted as an improvement) and for \"a result is returned\" (an assertion fails if the first iteration finds no step)."
  },
  {
   "property": "C78",
   "status": "partial",
   "theorems": [
    "Zfit.Lm.lm_edm_is_of_previous_point_partial",
    "Zfit.Lm.lm_valid_edm_partial",
    "Zfit.Lm.lm_edm_reported",
    "Zfit.Lm.minEv_derivatives",
    "Zfit.Lm.lm_valid_far_from_minimum_violated"
   ],
   "note": "Refuted: the criterion is computed with the gradient one step before and the damped Hessian; proved is what it is computed from, what is reported, and that a singular matrix or a negative value never counts as converged."
  },
  {
   "property": "C79",
   "status": "partial",
   "theorems": [
    "Zfit.Constr.gaussian_value",
    "Zfit.Constr.gaussian_spellings",
    "Zfit.Constr.gaussian_independent",
    "Zfit.Constr.gaussian_minimum",
    "Zfit.Constr.gaussian_rejects",
    "Zfit.Constr.gaussian_legacy",
    "Zfit.Constr.sample_columns",
    "Zfit.Constr.diagChol_is",
    "Zfit.Constr.gaussian_without_uncertainty_violated"
   ],
   "note": "Proved except the rejection of a constraint created without any uncertainty, which the code accepts (refuted)."
  },
  {
   "property": "C80",
   "status": "partial",
   "theorems": [
    "Zfit.Constr.poisson_exchanged_partial",
    "Zfit.Constr.poisson_documented_violated",
    "Zfit.Constr.poisson_two_minima",
    "Zfit.Constr.poisson_minimum_violated",
    "Zfit.Constr.lognormal_minimum",
    "Zfit.Constr.lognormal_observation_violated"
   ],
   "note": "Refuted: the code evaluates the distribution of the parameters with the observation as its parameter. Proved is what the code computes: the documented Poisson value with the roles exchanged, and the minimum exp(observation - uncertainty\u00b2) of the log-normal constraint."
  },
  {
   "property": "C81",
   "status": "partial",
   "theorems": [
    "Zfit.Dill.loads_first_success",
    "Zfit.Dill.load_rewinds",
    "Zfit.Dill.dumps_verified",
    "Zfit.Dill.dumps_first_try",
    "Zfit.Dill.negative_retries",
    "Zfit.Dill.dumps_bounded_partial",
    "Zfit.Dill.dict_changed_unbounded_violated",
    "Zfit.Dill.dump_verified",
    "Zfit.Dill.dump_first_try",
    "Zfit.Dill.dumps_discards_verified_violated",
    "Zfit.Dill.dump_garbage_violated",
    "Zfit.Dill.dump_trailing_violated"
   ],
   "note": "Proved for every schedule of failures, except: the number of attempts is unbounded while a dictionary changes its size (refuted), dumps may throw a verified dump away and raise (refuted), a failed or longer earlier dump leaves bytes in the file (refuted)."
  },
  {
   "property": "C82",
   "status": "partial",
   "theorems": [
    "Zfit.Kde.pad_refines",
    "Zfit.Kde.pad_modes",
    "Zfit.Kde.pad_inside_unchanged_partial",
    "Zfit.Kde.pad_symmetric",
    "Zfit.Kde.weights_twice",
    "Zfit.Kde.pad_outside_violated",
    "Zfit.Kde.pad_border_doubled_violated"
   ],
   "note": "Proved for events inside the limits; events outside the limits are mirrored into the range and events on a limit are doubled (refuted)."
  },
  {
   "property": "C83",
   "status": "proved",
   "theorems": [
    "Zfit.Kde.kde_weighted",
    "Zfit.Kde.kde_unweighted",
    "Zfit.Kde.kde_unweighted_array",
    "Zfit.Kde.kde_is_density",
    "Zfit.Kde.kde_weights_scale",
    "Zfit.Kde.kde_order",
    "Zfit.Kde.kde_weight_is_count",
    "Zfit.Kde.kde_weight_is_count_array",
    "Zfit.Kde.kde_negative_weight_violated"
   ],
   "note": "Over the reals, for every non-empty sample with non-negative weights of positive sum, as the quantifier says. Outside of it, a sample with a negative weight gives NaN everywhere (kde_negative_weight_violated)."
  },
  {
   "property": "C84",
   "status": "partial",
   "theorems": [
    "Zfit.Kde.linear_binning",
    "Zfit.Kde.linear_total",
    "Zfit.Kde.linear_mean",
    "Zfit.Kde.linear_unweighted",
    "Zfit.Kde.grid_covers",
    "Zfit.Kde.simple_weighted_shares",
    "Zfit.Kde.simple_split_violated",
    "Zfit.Kde.simple_weights_violated",
    "Zfit.Kde.grid_degenerate_violated"
   ],
   "note": "Linear binning is proved; simple binning splits events and ignores weights, and a sample of equal events gives a grid of no width (refuted)."
  },
  {
   "property": "C85",
   "status": "partial",
   "theorems": [
    "Zfit.Kde.rule_equivariant",
    "Zfit.Kde.percentile_meaning",
    "Zfit.Kde.weighted_quantile_meaning",
    "Zfit.Kde.rule_weights_scale",
    "Zfit.Kde.rule_order",
    "Zfit.Kde.rule_weighted_order_partial",
    "Zfit.Kde.rule_nonneg",
    "Zfit.Kde.rule_value",
    "Zfit.Kde.rule_documented_violated",
    "Zfit.Kde.rule_unit_weights_violated",
    "Zfit.Kde.rule_count_violated",
    "Zfit.Kde.rule_raises_violated",
    "Zfit.Kde.rule_zero_violated",
    "Zfit.Kde.rule_weighted_order_violated"
   ],
   "note": "Equivariance, sign, independence of a common factor and of the order (weighted: for distinct values) are proved. Refuted: IQR is not divided by 1.34, the count ignores the weights, unit weights differ from none, the order of equal events with different weights matters, samples that are not constant can give zero, and a largest event with more than half of the weight raises."
  },
  {
   "property": "C86",
   "status": "proved",
   "theorems": [
    "Zfit.Kde.adaptive_inverse_root",
    "Zfit.Kde.adaptive_equivariant",
    "Zfit.Kde.adaptive_weights_scale"
   ],
   "note": "Over the reals, given the density estimate."
  },
  {
   "property": "C87",
   "status": "partial",
   "theorems": [
    "Zfit.Dist.pdf_of_shape",
    "Zfit.Dist.gauss_shape",
    "Zfit.Dist.uniform_shape",
    "Zfit.Dist.truncatedGauss_shape",
    "Zfit.Dist.cauchy_shape",
    "Zfit.Dist.logNormal_shape",
    "Zfit.Dist.chiSquared_shape",
    "Zfit.Dist.gamma_shape",
    "Zfit.Dist.studentT_shape",
    "Zfit.Dist.bifurGauss_shape",
    "Zfit.Dist.johnsonSU_shape",
    "Zfit.Dist.generalizedGauss_shape",
    "Zfit.Dist.qGauss_shape_partial",
    "Zfit.Dist.qGauss_rejects",
    "Zfit.Dist.infinite_range_refused",
    "Zfit.Dist.qGauss_documented_violated"
   ],
   "note": "Proved for all but QGauss, given the formulas of the library (trusted) and a cumulative distribution that is the integral of its density. QGauss has the documented shape with sqrt(2) sigma in place of sigma (refuted), and q = 3 is accepted."
  },
  {
   "property": "C88",
   "status": "proved",
   "theorems": [
    "Zfit.Dist.sample_length",
    "Zfit.Dist.sample_inside",
    "Zfit.Dist.sample_distribution",
    "Zfit.Dist.sample_refused"
   ],
   "note": "For every random number in (0, 1); the library's cumulative distribution and quantile are parameters, related by the definition of a quantile. The number 0 has probability zero and is not covered."
  },
  {
   "property": "C89",
   "status": "partial",
   "theorems": [
    "Zfit.Dist.poisson_ratio",
    "Zfit.Dist.poisson_sum_partial",
    "Zfit.Dist.poisson_sum_violated"
   ],
   "note": "Proved for the integers above the lower limit. An integer lower limit belongs to the range but not to the normalisation (refuted: rate 1, range [0, 1], the sum is 2)."
  },
  {
   "property": "C90",
   "status": "partial",
   "theorems": [
    "Zfit.Spline.regular_templates",
    "Zfit.Spline.morph_template",
    "Zfit.Spline.morph_totals",
    "Zfit.Spline.morph_counts_affine",
    "Zfit.Spline.morph_two",
    "Zfit.Spline.morph_order_irrelevant",
    "Zfit.Spline.morph_single",
    "Zfit.Spline.morph_refused",
    "Zfit.Spline.from_list",
    "Zfit.Spline.morph_negative_violated",
    "Zfit.Spline.morph_counts_violated",
    "Zfit.Spline.morph_changes_input_violated"
   ],
   "note": "Over the reals, for alpha values at least 1e-5 apart (the cut-off of the kernel): the system can always be solved (the thin-plate kernel is conditionally positive definite), and everything listed is proved except three parts that are refuted: counts can become negative, counts are not the yield times the relative counts between templates, and the dictionary of the user is changed."
  },
  {
   "property": "C91",
   "status": "partial",
   "theorems": [
    "Zfit.Spline.regular_order_three",
    "Zfit.Spline.regular_order_two",
    "Zfit.Spline.phi_documented",
    "Zfit.Spline.interpolate_form",
    "Zfit.Spline.spline_pdf_centre",
    "Zfit.Spline.spline_pdf_affine",
    "Zfit.Spline.spline_ext_pdf",
    "Zfit.Spline.spline_ext_centre",
    "Zfit.Spline.spline_pdf_negative_violated",
    "Zfit.Spline.spline_pdf_norm_violated",
    "Zfit.Spline.spline_ext_order_violated"
   ],
   "note": "Over the reals, in one dimension, for centres at least 1e-5 apart. Refuted: the density can be negative, is not normalised, and ignores the order while the extended density uses it."
  },
  {
   "property": "C92",
   "status": "partial",
   "theorems": [
    "Zfit.Diff.numerical_result",
    "Zfit.Diff.numerical_restores",
    "Zfit.Diff.numerical_others",
    "Zfit.Diff.value_gradient_restores",
    "Zfit.Diff.value_gradient_hessian_restores",
    "Zfit.Diff.gradient_exact",
    "Zfit.Diff.gradient_halved_at_limit",
    "Zfit.Diff.gradient_at_limit_violated",
    "Zfit.Diff.exception_leaves_step_violated",
    "Zfit.Diff.alias_recursion_violated",
    "Zfit.Diff.gradient_instead_of_func_violated"
   ],
   "note": "The library is an arbitrary decision tree of evaluations; exactness is for central differences with any steps and weights. Refuted: func raising leaves the parameters at the last step; at a limit the derivative of a linear function is halved (values are clipped); the deprecated name recurses for ever; a gradient instead of func raises TypeError."
  },
  {
   "property": "C93",
   "status": "partial",
   "theorems": [
    "Zfit.Diff.derivatives_agree",
    "Zfit.Diff.derivative_method_partial",
    "Zfit.Diff.derivative_option_partial",
    "Zfit.Diff.overridden_used",
    "Zfit.Diff.simple_loss_derivatives",
    "Zfit.Diff.value_gradient_argument_violated",
    "Zfit.Diff.hessian_option_violated",
    "Zfit.Diff.overridden_gradient_violated",
    "Zfit.Diff.simple_loss_automatic_violated",
    "Zfit.Diff.simple_loss_create_new_violated"
   ],
   "note": "Agreement is proved for every loss. Refuted: value_gradient ignores numgrad; hessian() ignores the option numhess and value_gradient_hessian() uses it for the gradient; value_gradient_hessian ignores an overridden gradient; SimpleLoss(gradient=\"zfit\") cannot be differentiated; create_new forgets gradient and hessian."
  },
  {
   "property": "C94",
   "status": "partial",
   "theorems": [
    "Zfit.Conv.value_at_points_partial",
    "Zfit.Conv.value_between",
    "Zfit.Conv.setup_points",
    "Zfit.Conv.kernel_scaled",
    "Zfit.Conv.distribution_of_sum",
    "Zfit.Conv.total_product",
    "Zfit.Conv.mean_sum",
    "Zfit.Conv.variance_sum",
    "Zfit.Conv.linear_func",
    "Zfit.Conv.linear_kernel",
    "Zfit.Conv.pdf_nonneg",
    "Zfit.Conv.translation",
    "Zfit.Conv.range_sufficient_partial",
    "Zfit.Conv.setup_accepted",
    "Zfit.Conv.setup_grid",
    "Zfit.Conv.interpolation_accepted",
    "Zfit.Conv.interpolation_default",
    "Zfit.Conv.nKernel_spec",
    "Zfit.Conv.convolution_violated",
    "Zfit.Conv.width_violated",
    "Zfit.Conv.range_violated",
    "Zfit.Conv.one_point_violated"
   ],
   "note": "One observable, linear interpolation, exact numbers. The pdf is proved to be the convolution with a kernel that is compressed about the centre of its range by the exact factor N(n-1)/((N-1)n). Refuted: the kernel is always narrower than given (grids with different steps), so the variance is always too small; for kernels whose limits are not symmetric, values of func inside its limits are missing; with n=0 or n=1 the kernel is only evaluated at its lower limit."
  },
  {
   "property": "C95",
   "status": "partial",
   "theorems": [
    "Zfit.Conv.proposal_spec",
    "Zfit.Conv.proposal_complete",
    "Zfit.Conv.all_accepted",
    "Zfit.Conv.sampling_law_partial",
    "Zfit.Conv.range_symmetric_iff",
    "Zfit.Conv.sampling_violated",
    "Zfit.Conv.no_proposal_violated",
    "Zfit.Conv.sum_samples_spec"
   ],
   "note": "Proved as an equality of conditional distributions for all finite measures and all limits when the kernel limits are symmetric. Refuted otherwise (the lower kernel limit is added instead of the upper one subtracted), and sampling raises if a batch, possibly of a single event, has no event in the limits (numerical checks, on by default)."
  },
  {
   "property": "C96",
   "status": "proved",
   "theorems": [
    "Zfit.Wrap.scipy_valid",
    "Zfit.Wrap.nlopt_valid",
    "Zfit.Wrap.ipopt_valid",
    "Zfit.Wrap.scipy_stuck",
    "Zfit.Wrap.scipy_calls",
    "Zfit.Wrap.nlopt_calls",
    "Zfit.Wrap.ipopt_calls",
    "Zfit.Wrap.scipy_limits_stop",
    "Zfit.Wrap.scipy_limits_reason"
   ],
   "note": "The library, the criterion, the evaluation counter and the random numbers are arbitrary functions. The additional condition on limits is C52."
  },
  {
   "property": "C97",
   "status": "partial",
   "theorems": [
    "Zfit.Wrap.minuit_valid",
    "Zfit.Wrap.minuit_criterion_partial",
    "Zfit.Wrap.minuit_goal",
    "Zfit.Wrap.minuit_edm_partial",
    "Zfit.Wrap.minuit_edm_violated",
    "Zfit.Wrap.minuit_budget_partial",
    "Zfit.Wrap.minuit_budget_violated"
   ],
   "note": "Refuted: with the default criterion the tolerance handed to iminuit makes its goal tol instead of errordef * tol, so that a valid likelihood fit (errordef 0.5) may be twice as far away as documented; maxiter limits each of up to 20 runs, not the minimisation."
  },
  {
   "property": "C98",
   "status": "partial",
   "theorems": [
    "Zfit.Wrap.ipopt_together",
    "Zfit.Wrap.nlopt_together_partial",
    "Zfit.Wrap.scipy_together_partial",
    "Zfit.Wrap.scipy_together_violated",
    "Zfit.Wrap.nlopt_together_violated"
   ],
   "note": "Holds for Ipyopt and for valid results of NLopt. Refuted for Scipy (the last point is randomly displaced in place after its criterion was computed, and returned in a valid result) and for NLopt results after a failed run."
  },
  {
   "property": "C99",
   "status": "partial",
   "theorems": [
    "Zfit.Wrap.nlopt_keeps",
    "Zfit.Wrap.ipopt_keeps",
    "Zfit.Wrap.nlopt_inside",
    "Zfit.Wrap.ipopt_inside",
    "Zfit.Wrap.scipy_keeps_partial",
    "Zfit.Wrap.scipy_inside_partial",
    "Zfit.Wrap.scipy_inside_violated"
   ],
   "note": "Holds for NLopt and Ipyopt, and for every property of points that the library preserves. Refuted for Scipy: the random displacement ignores the limits."
  },
  {
   "property": "C100",
   "status": "partial",
   "theorems": [
    "Zfit.Wrap.ipopt_budget_partial",
    "Zfit.Wrap.nlopt_returns_partial",
    "Zfit.Wrap.scipy_errors",
    "Zfit.Wrap.nlopt_budget_stops",
    "Zfit.Wrap.ipopt_budget_stops",
    "Zfit.Wrap.scipy_budget_stops",
    "Zfit.Wrap.nlopt_restart_violated",
    "Zfit.Wrap.nlopt_stuck_violated",
    "Zfit.Wrap.scipy_budget_violated"
   ],
   "note": "Holds for Ipyopt. Refuted: the restarts of NLopt are drawn but never used (the result is proved independent of them); Scipy raises MaximumIterationReached in later runs too."
  },
  {
   "property": "C101",
   "status": "partial",
   "theorems": [
    "Zfit.Wrap.scipy_derivatives_partial",
    "Zfit.Wrap.scipy_gradient_partial",
    "Zfit.Wrap.scipy_gradient_violated",
    "Zfit.Wrap.nlopt_algorithm_violated",
    "Zfit.Wrap.nlopt_cobyla_violated"
   ],
   "note": "Refuted: every NLopt minimiser runs L-BFGS; numerical gradients are refused by every Scipy minimiser with a hessian, whatever the hessian."
  },
  {
   "property": "C102",
   "status": "partial",
   "theorems": [
    "Zfit.Wrap.ipopt_init_partial",
    "Zfit.Wrap.minuit_init_partial",
    "Zfit.Wrap.ipopt_options_violated",
    "Zfit.Wrap.minuit_options_violated",
    "Zfit.Wrap.minuit_unknown_violated"
   ],
   "note": "Refuted: Ipyopt and Minuit write into the dictionary of the user; a second Ipyopt with the same dictionary always fails; Minuit refuses unknown options only when minimising."
  },
  {
   "property": "C103",
   "status": "proved",
   "theorems": [
    "Zfit.Wrap.edm_is_distance",
    "Zfit.Wrap.edm_converged",
    "Zfit.Wrap.edm_nonneg",
    "Zfit.Wrap.edm_singular",
    "Zfit.Wrap.edm_negative",
    "Zfit.Wrap.parabola_expand"
   ],
   "note": "Real matrices; positive definite curvature as in Mathlib."
  },
  {
   "property": "C104",
   "status": "partial",
   "theorems": [
    "Zfit.Wrap.edm_minimum_partial",
    "Zfit.Wrap.edm_saddle_violated",
    "Zfit.Wrap.edm_maximum_violated",
    "Zfit.Wrap.edm_documented_violated"
   ],
   "note": "Refuted: the criterion is 0 at saddle points and maxima; the documented formula lacks the factor 1/2."
  },
  {
   "property": "C105",
   "status": "proved",
   "theorems": [
    "Zfit.Convert.binned_rel_counts",
    "Zfit.Convert.binned_rel_counts_sum",
    "Zfit.Convert.binLimits_eq",
    "Zfit.Convert.additive_hull"
   ],
   "note": "Rational boxes; the integral of the PDF is an arbitrary (additive) function of boxes."
  },
  {
   "property": "C106",
   "status": "partial",
   "theorems": [
    "Zfit.Convert.binned_counts_partial",
    "Zfit.Convert.binned_counts_sum_partial",
    "Zfit.Convert.binned_given_yield_violated"
   ],
   "note": "Refuted: for a PDF that is already extended the given yield is reported but the counts add up to the old one."
  },
  {
   "property": "C107",
   "status": "partial",
   "theorems": [
    "Zfit.Convert.binned_counts_rel_partial",
    "Zfit.Convert.binned_counts_cut_norm_violated"
   ],
   "note": "Proved without norm, for the space and for ranges of whole bins. Refuted for norms that end inside a bin or are larger than the binning."
  },
  {
   "property": "C108",
   "status": "proved",
   "theorems": [
    "Zfit.Convert.unbinned_pdf_is_step",
    "Zfit.Convert.unbinned_integral_is_step",
    "Zfit.Convert.inside_or_outside"
   ],
   "note": "With the own norm of the PDF; boxes that miss the bins are C35."
  },
  {
   "property": "C109",
   "status": "proved",
   "theorems": [
    "Zfit.Convert.unbin_bin_roundtrip",
    "Zfit.Convert.integral_of_bin"
   ],
   "note": "For binned PDFs without an own _integrate (all of zfit)."
  },
  {
   "property": "C110",
   "status": "partial",
   "theorems": [
    "Zfit.Convert.unbinned_normalised_partial",
    "Zfit.Convert.unbinned_normalised_default_partial",
    "Zfit.Convert.unbinned_own_norm_violated"
   ],
   "note": "Refuted: the own norm of the PDF is replaced by that of the binned PDF."
  },
  {
   "property": "C111",
   "status": "partial",
   "theorems": [
    "Zfit.Convert.unbinned_yield_partial",
    "Zfit.Convert.unbinned_given_yield_violated"
   ],
   "note": "Refuted: with a yield given ext_pdf uses the yield of the binned PDF, or raises if there is none, while ext_integrate uses the given one."
  },
  {
   "property": "C112",
   "status": "partial",
   "theorems": [
    "Zfit.Convert.unbinned_sample_partial",
    "Zfit.Convert.unbinned_sample_limits_violated",
    "Zfit.Convert.unbinned_sample_order_violated"
   ],
   "note": "Proved for limits that contain the bins, for all random numbers. Refuted for other limits (events outside are drawn and thrown away) and for the order (the events come sorted by bin)."
  },
  {
   "property": "C113",
   "status": "proved",
   "theorems": [
    "Zfit.Args.composed_positional",
    "Zfit.Args.composed_by_name",
    "Zfit.Args.composed_star_kwargs",
    "Zfit.Args.composed_whole",
    "Zfit.Args.composed_nothing",
    "Zfit.Args.composed_undecided",
    "Zfit.Args.composed_explicit"
   ],
   "note": "Functions are signatures (names, defaults, *args, **kwargs) with an arbitrary body."
  },
  {
   "property": "C114",
   "status": "partial",
   "theorems": [
    "Zfit.Args.composed_list_callable_iff_partial",
    "Zfit.Args.single_entry_dict_violated",
    "Zfit.Args.star_args_violated"
   ],
   "note": "Characterised for lists and functions without defaults and *args. Refuted: a mapping with one entry whose key is not the name of the single argument, and functions with *args, are accepted at creation and fail in every evaluation."
  },
  {
   "property": "C115",
   "status": "partial",
   "theorems": [
    "Zfit.Args.composed_reports_partial",
    "Zfit.Args.composed_depends_only_partial",
    "Zfit.Args.no_argument_list_violated",
    "Zfit.Args.conj_params_violated"
   ],
   "note": "Proved for every composed parameter whose function uses only its arguments. Refuted: a list of parameters given for a function without arguments is dropped; the conjugate of a complex parameter reports no parameter at all."
  },
  {
   "property": "C116",
   "status": "proved",
   "theorems": [
    "Zfit.Args.cartesian_value",
    "Zfit.Args.polar_value",
    "Zfit.Args.conj_value",
    "Zfit.Args.polar_mod_arg",
    "Zfit.Args.polar_of_parts"
   ],
   "note": "Real and complex numbers of Mathlib."
  },
  {
   "property": "C117",
   "status": "partial",
   "theorems": [
    "Zfit.Args.complex_floating_partial",
    "Zfit.Args.complex_floating_violated"
   ],
   "note": "Proved for numbers. Refuted for parts that are parameters: floating=False is ignored."
  },
  {
   "property": "C118",
   "status": "partial",
   "theorems": [
    "Zfit.Args.pickle_partial",
    "Zfit.Args.at_limit_means",
    "Zfit.Args.pickle_has_limits_violated",
    "Zfit.Args.pickle_step_violated",
    "Zfit.Args.pickle_empty_range_violated"
   ],
   "note": "Name, value, limits, step size, floating and label come back. Refuted: has_limits and has_stepsize become True (Minuit and NLopt take another first step), and parameters with equal limits cannot be restored."
  },
  {
   "property": "C119",
   "status": "partial",
   "theorems": [
    "Zfit.Args.randomize_partial",
    "Zfit.Args.randomize_failed_partial",
    "Zfit.Args.randomize_without_limits_violated"
   ],
   "note": "Refuted: without limits no RuntimeError is raised."
  },
  {
   "property": "C120",
   "status": "proved",
   "theorems": [
    "Zfit.Args.convert_param",
    "Zfit.Args.convert_const",
    "Zfit.Args.convert_free",
    "Zfit.Args.convert_complex",
    "Zfit.Args.auto_names_distinct",
    "Zfit.Args.convert_rows",
    "Zfit.Args.convert_rejected"
   ],
   "note": ""
  },
  {
   "property": "C121",
   "status": "partial",
   "theorems": [
    "Zfit.Args.convert_limits_partial",
    "Zfit.Args.convert_limits_violated",
    "Zfit.Args.convert_complex_limits_violated"
   ],
   "note": "Proved with prefer_constant=False. Refuted: with the default the limits are dropped silently, and for complex numbers always."
  },
  {
   "property": "C122",
   "status": "partial",
   "theorems": [
    "Zfit.Args.autograd_params_model_partial",
    "Zfit.Args.autograd_false_params",
    "Zfit.Args.autograd_refused_partial",
    "Zfit.Args.autograd_declaration",
    "Zfit.Args.cached_pdf_violated"
   ],
   "note": "Proved for the declared names of own parameters of every tree of models. Refuted: CachedPDF declares that no parameter supports it, but its parameters are those of its daughter, so none is refused."
  },
  {
   "property": "C123",
   "status": "proved",
   "theorems": [
    "Zfit.Args.model_value_at",
    "Zfit.Args.model_point_rejected",
    "Zfit.Args.loss_value_at",
    "Zfit.Args.loss_value_at_array",
    "Zfit.Args.loss_point_rejected",
    "Zfit.Args.loss_call_at"
   ],
   "note": ""
  },
  {
   "property": "C124",
   "status": "partial",
   "theorems": [
    "Zfit.Args.rejected_untouched_partial",
    "Zfit.Args.rejected_value_leaks_violated",
    "Zfit.Args.rejected_call_leaks_violated"
   ],
   "note": "Proved for a single value. Refuted: parameters before the rejected one keep the new values."
  },
  {
   "property": "C125",
   "status": "partial",
   "theorems": [
    "Zfit.Unc.hesse_error_nll_partial",
    "Zfit.Unc.hesse_error_minuit",
    "Zfit.Unc.hesse_error_chi2_violated"
   ],
   "note": "Proved for minuit_hesse with every errordef and for hesse_np with the errordef 1/2 of likelihoods. Refuted: hesse_np does not use errordef, so the errors of chi2 fits are smaller by a factor of sqrt(2)."
  },
  {
   "property": "C126",
   "status": "partial",
   "theorems": [
    "Zfit.Unc.covariance_at_minimum_partial",
    "Zfit.Unc.hesse_at_current_values_violated"
   ],
   "note": "Proved for the Minuit and approximate methods and, if the parameters are at the minimum, for hesse_np. Refuted: hesse_np takes the second derivatives at the current values."
  },
  {
   "property": "C127",
   "status": "partial",
   "theorems": [
    "Zfit.Unc.covariance_restores_partial",
    "Zfit.Unc.covariance_moves_parameters_violated"
   ],
   "note": "Proved if no selection of parameters is given, for the selected parameters, and for the methods that do not move parameters. Refuted: with a selection, minuit_hesse leaves the other parameters where Minuit evaluated last."
  },
  {
   "property": "C128",
   "status": "partial",
   "theorems": [
    "Zfit.Unc.asymptotic_covariance_partial",
    "Zfit.Unc.asymptotic_symmetric",
    "Zfit.Unc.asymptotic_scale_invariant",
    "Zfit.Unc.asymptotic_unit_weights",
    "Zfit.Unc.yieldGrad_correct",
    "Zfit.Unc.asymptotic_yield_violated",
    "Zfit.Unc.asymptotic_constraint_violated"
   ],
   "note": "Proved without yields and constraints. Refuted: the Poisson term of a yield and the constraints enter as if they were single events, with derivative zero at the minimum, so the variance of a yield alone and of a constrained parameter is zero."
  },
  {
   "property": "C129",
   "status": "partial",
   "theorems": [
    "Zfit.Unc.effsize_partial",
    "Zfit.Unc.effsize_violated",
    "Zfit.Unc.effsize_mixed_violated"
   ],
   "note": "Refuted: the factor is computed but not used, the covariance is the uncorrected one; if some data has no weights an AttributeError is raised. Proved for weights with factor 1 only."
  },
  {
   "property": "C130",
   "status": "partial",
   "theorems": [
    "Zfit.Unc.root_sound",
    "Zfit.Unc.root_repeated",
    "Zfit.Unc.new_minimum_sound",
    "Zfit.Unc.equations_sound",
    "Zfit.Unc.parabola_errors_partial",
    "Zfit.Unc.profile_not_minimised_violated"
   ],
   "note": "The guarantees for roots and new minima are proved for every sequence of evaluations, and for parabolas without limits the errors are those of the profile. Refuted in general: the gradient with respect to the other parameters is not checked, so a point with the right loss is taken although the other parameters are not adjusted."
  },
  {
   "property": "C131",
   "status": "proved",
   "theorems": [
    "Zfit.Unc.start_within",
    "Zfit.Unc.start_missing",
    "Zfit.Unc.start_unlimited",
    "Zfit.Unc.search_start_limits"
   ],
   "note": ""
  },
  {
   "property": "C132",
   "status": "proved",
   "theorems": [
    "Zfit.Loss.binned_nll_minimum"
   ],
   "note": ""
  },
  {
   "property": "C133",
   "status": "proved",
   "theorems": [
    "Zfit.Loss.chi2_minimum",
    "Zfit.Loss.chi2_minimum_expected"
   ],
   "note": ""
  },
  {
   "property": "C134",
   "status": "proved",
   "theorems": [
    "Zfit.Loss.extended_yield_minimum"
   ],
   "note": "Stated as the difference of the two likelihoods, from which both consequences follow."
  },
  {
   "property": "C135",
   "status": "partial",
   "theorems": [
    "Zfit.Loss.fit_range_cut_partial",
    "Zfit.Loss.fit_range_extended_violated"
   ],
   "note": "Proved for unbinned likelihoods. Refuted for extended ones: the number of events of the extended term is that of the uncut data."
  },
  {
   "property": "C136",
   "status": "proved",
   "theorems": [
    "Zfit.Loss.event_order",
    "Zfit.Loss.split_data",
    "Zfit.Loss.weights_are_copies",
    "Zfit.Loss.weights_scale",
    "Zfit.Loss.density_zero"
   ],
   "note": ""
  },
  {
   "property": "C137",
   "status": "proved",
   "theorems": [
    "Zfit.Part.partial_integral_sound",
    "Zfit.Part.partial_integral_single"
   ],
   "note": ""
  },
  {
   "property": "C138",
   "status": "partial",
   "theorems": [
    "Zfit.Part.partial_pieces_partial",
    "Zfit.Part.partial_pieces_analytic_partial",
    "Zfit.Part.partial_pieces_violated"
   ],
   "note": "Proved with an overridden _partial_integrate or registered analytic integrals. Refuted for every PDF without them: the numeric integration raises ValueError for several pieces, which is not caught."
  },
  {
   "property": "C139",
   "status": "partial",
   "theorems": [
    "Zfit.Part.partial_numeric_partial",
    "Zfit.Part.partial_numeric_violated"
   ],
   "note": "Refuted for every PDF that does not override _partial_numeric_integrate: the base method has a required argument that is never given. Also refuted for every normalisation range if the override does not support norm."
  },
  {
   "property": "C140",
   "status": "proved",
   "theorems": [
    "Zfit.Part.partial_mc_value",
    "Zfit.Part.partial_mc_order"
   ],
   "note": ""
  },
  {
   "property": "C141",
   "status": "partial",
   "theorems": [
    "Zfit.Part.partial_mc_extra_partial",
    "Zfit.Part.partial_mc_overlap_violated"
   ],
   "note": "Proved for observables the model does not have. Refuted for the observables of the limits: the values of the event replace the drawn ones."
  },
  {
   "property": "C142",
   "status": "partial",
   "theorems": [
    "Zfit.Draw.sample_n_partial",
    "Zfit.Draw.sample_count",
    "Zfit.Draw.sample_n_violated"
   ],
   "note": "Refuted: every string is replaced by None, so any string is taken as \"extended\", and \"extended\" for a PDF that is not raises ValueError."
  },
  {
   "property": "C143",
   "status": "partial",
   "theorems": [
    "Zfit.Draw.extended_sampling_partial",
    "Zfit.Draw.extended_sampling_auto_sum",
    "Zfit.Draw.extended_sampling_truncated_violated",
    "Zfit.Draw.extended_sampling_fracs_violated",
    "Zfit.Draw.extended_sampling_mixed_violated"
   ],
   "note": "Proved for PDFs sampled as a whole and sums that get their yield from their daughters, nested to any depth. Refuted for truncated extended PDFs (the wrapped PDF is sampled everywhere) and for extended sums with fractions and extended daughters."
  },
  {
   "property": "C144",
   "status": "proved",
   "theorems": [
    "Zfit.Draw.sum_sample_follows",
    "Zfit.Draw.sum_sample_inside"
   ],
   "note": ""
  },
  {
   "property": "C145",
   "status": "partial",
   "theorems": [
    "Zfit.Draw.sum_sample_limits_partial",
    "Zfit.Draw.sum_sample_limits_violated"
   ],
   "note": "Proved if all components have the same part of their probability in the limits. Refuted otherwise: the fractions are not adjusted to the limits."
  },
  {
   "property": "C146",
   "status": "proved",
   "theorems": [
    "Zfit.Draw.truncated_sample_follows",
    "Zfit.Draw.truncated_sample_inside"
   ],
   "note": ""
  },
  {
   "property": "C147",
   "status": "partial",
   "theorems": [
    "Zfit.Draw.product_sample_partial",
    "Zfit.Draw.product_sample_disjoint",
    "Zfit.Draw.product_sample_order_violated",
    "Zfit.Draw.product_sample_shared_violated"
   ],
   "note": "Proved if the observables are in the order of the groups of factors. Refuted: with obs in another order, or if some factors share observables, the columns get the names of other observables."
  },
  {
   "property": "C148",
   "status": "partial",
   "theorems": [
    "Zfit.Draw.product_sample_limits_partial",
    "Zfit.Draw.product_sample_limits_violated"
   ],
   "note": "Proved for boxes. Refuted for limits with several boxes: the factors are sampled independently in the projections and events outside are cut away."
  },
  {
   "property": "C149",
   "status": "proved",
   "theorems": [
    "Zfit.Fun.value_by_name",
    "Zfit.Fun.value_missing",
    "Zfit.Fun.value_order",
    "Zfit.Fun.value_array"
   ],
   "note": ""
  },
  {
   "property": "C150",
   "status": "partial",
   "theorems": [
    "Zfit.Fun.reported_partial",
    "Zfit.Fun.reported_functor_violated",
    "Zfit.Fun.reported_clash_violated",
    "Zfit.Fun.scale_accepted_iff"
   ],
   "note": "Proved if parameters are multiplied with functions of the user (or such products) only, with names that are no keywords. Refuted: p * (f + g) reports p only; a parameter with the name of a keyword of the function is not reported."
  },
  {
   "property": "C151",
   "status": "partial",
   "theorems": [
    "Zfit.Fun.as_pdf_partial",
    "Zfit.Fun.as_pdf_functor_violated",
    "Zfit.Fun.as_pdf_extended_violated"
   ],
   "note": "Proved for functions of the user with keywords that are no arguments of SimplePDF. Refuted: the PDF of a sum or product reports no parameters; a parameter for the keyword extended becomes the yield."
  },
  {
   "property": "C152",
   "status": "partial",
   "theorems": [
    "Zfit.Fun.limits_partial",
    "Zfit.Fun.limits_scale_violated",
    "Zfit.Fun.limits_sum_violated"
   ],
   "note": "Proved for sums and products. Refuted: a parameter times a function and as_pdf lose the limits, so that f + p * g raises LimitsNotSpecifiedError."
  },
  {
   "property": "C153",
   "status": "partial",
   "theorems": [
    "Zfit.Fun.sum_integral_partial",
    "Zfit.Fun.sum_integral_violated"
   ],
   "note": "Proved for functions of the same observables. Refuted for different ones: the integral over the other observables is missing."
  },
  {
   "property": "C154",
   "status": "partial",
   "theorems": [
    "Zfit.Fun.copy_partial",
    "Zfit.Fun.copy_violated"
   ],
   "note": "Refuted for every SimpleFunc: copy raises TypeError after it has changed the parameters of the original. Only: without new parameters the original is not changed."
  },
  {
   "property": "C155",
   "status": "partial",
   "theorems": [
    "Zfit.Smp.update_binned_partial",
    "Zfit.Smp.update_binned_not_atomic_violated",
    "Zfit.Smp.update_binned_hashing_violated",
    "Zfit.Smp.create_hashing_violated"
   ],
   "note": "Proved with hashing enabled if variances come exactly if the sampler has some. Refuted: otherwise, or with hashing disabled, the call raises after the contents have been replaced."
  },
  {
   "property": "C156",
   "status": "partial",
   "theorems": [
    "Zfit.Smp.shape_binned_partial",
    "Zfit.Smp.shape_binned_violated"
   ],
   "note": "Proved for histories where all arrays have the shape of the binning. Refuted: other shapes are accepted."
  },
  {
   "property": "C157",
   "status": "partial",
   "theorems": [
    "Zfit.Smp.update_by_name_partial",
    "Zfit.Smp.update_order_violated",
    "Zfit.Smp.update_bins_violated"
   ],
   "note": "Proved for the same axes in the same order. Refuted for other orders and other bins: the contents are copied by position."
  },
  {
   "property": "C158",
   "status": "proved",
   "theorems": [
    "Zfit.Smp.resample_arguments_binned",
    "Zfit.Smp.resample_refused_binned",
    "Zfit.Smp.resample_calls_binned",
    "Zfit.Smp.resample_arguments",
    "Zfit.Smp.resample_refused",
    "Zfit.Smp.resample_calls"
   ],
   "note": ""
  },
  {
   "property": "C159",
   "status": "partial",
   "theorems": [
    "Zfit.Smp.notice_changed",
    "Zfit.Smp.notice_update_partial",
    "Zfit.Smp.notice_collision_violated",
    "Zfit.Smp.notice_failed_update_violated",
    "Zfit.Smp.notice_hashing_violated"
   ],
   "note": "Proved: the data is checked exactly if one of the hashes differs. Refuted: contents with the same hash modulo 4096, updates that raise, and disabled hashing are not noticed."
  },
  {
   "property": "C160",
   "status": "partial",
   "theorems": [
    "Zfit.Smp.from_hist",
    "Zfit.Smp.from_hist_unsupported",
    "Zfit.Smp.round_trip_partial",
    "Zfit.Smp.round_trip_violated"
   ],
   "note": "from_hist in full; the way back proved for data with variances. Refuted for data without: it comes back with variances that are not a number."
  },
  {
   "property": "C161",
   "status": "partial",
   "theorems": [
    "Zfit.Smp.variances_partial",
    "Zfit.Smp.poisson_variance_violated",
    "Zfit.Smp.with_variances_partial",
    "Zfit.Smp.with_variances_shape",
    "Zfit.Smp.with_variances_sampler_violated"
   ],
   "note": "Proved for given variances and contents 0 and 1. Refuted for all other contents (the root of the content is stored) and for samplers (with_variances always raises)."
  },
  {
   "property": "C162",
   "status": "partial",
   "theorems": [
    "Zfit.Smp.create_inside",
    "Zfit.Smp.inside_partial",
    "Zfit.Smp.inside_violated"
   ],
   "note": "Proved for the creation and if the sampling function keeps to the limits. Refuted: samples drawn by resample are never cut."
  },
  {
   "property": "C163",
   "status": "proved",
   "theorems": [
    "Zfit.Smp.update_with_data",
    "Zfit.Smp.update_with_array",
    "Zfit.Smp.update_data_and_weights"
   ],
   "note": ""
  },
  {
   "property": "C164",
   "status": "partial",
   "theorems": [
    "Zfit.Smp.resample_possible_binned",
    "Zfit.Smp.resample_possible_partial",
    "Zfit.Smp.resample_possible_violated"
   ],
   "note": "Binned samplers in full; unbinned ones if the function returns a two dimensional tensor with as many events as asked for. Refuted for NumPy arrays, one dimensional tensors and other numbers of events."
  },
  {
   "property": "C165",
   "status": "proved",
   "theorems": [
    "Zfit.Start.varies",
    "Zfit.Start.nothing_to_vary",
    "Zfit.Start.starts",
    "Zfit.Start.refused"
   ],
   "note": ""
  },
  {
   "property": "C166",
   "status": "proved",
   "theorems": [
    "Zfit.Start.start_values"
   ],
   "note": ""
  },
  {
   "property": "C167",
   "status": "partial",
   "theorems": [
    "Zfit.Start.start_from_init_partial",
    "Zfit.Start.given_overwritten_violated"
   ],
   "note": "Proved if the call gives no values for parameters that are varied. Refuted: given values are overwritten by those of the result."
  },
  {
   "property": "C168",
   "status": "partial",
   "theorems": [
    "Zfit.Start.init_superset_partial",
    "Zfit.Start.init_other_violated"
   ],
   "note": "Proved for results that have all free parameters. Refuted for all others: a ValueError is raised."
  },
  {
   "property": "C169",
   "status": "partial",
   "theorems": [
    "Zfit.Start.any_result_partial",
    "Zfit.Start.foreign_result_violated"
   ],
   "note": "Proved for all SciPy minimisers but Powell and Nelder-Mead, and for those with results of SciPy. Refuted for those with all results of Minuit, NLopt and Ipopt."
  },
  {
   "property": "C170",
   "status": "partial",
   "theorems": [
    "Zfit.Start.reuse_partial",
    "Zfit.Start.simplex_kept_violated",
    "Zfit.Start.radius_kept_violated"
   ],
   "note": "Proved for minimisers without initialiser, TNC, and those with a trust radius without a result to start from. Refuted for Powell, Nelder-Mead and trust radii with a result."
  },
  {
   "property": "C171",
   "status": "partial",
   "theorems": [
    "Zfit.Start.options_reach_partial",
    "Zfit.Start.trust_radius_violated"
   ],
   "note": "Proved for all options that the minimiser does not write itself. Refuted for the initial trust radius."
  },
  {
   "property": "C172",
   "status": "partial",
   "theorems": [
    "Zfit.Start.refused_unchanged_partial",
    "Zfit.Start.refused_changed_violated",
    "Zfit.Start.refused_init_violated"
   ],
   "note": "Proved for calls without values and results. Refuted: values have been set before the exception."
  },
  {
   "property": "C173",
   "status": "partial",
   "theorems": [
    "Zfit.Start.list_partial",
    "Zfit.Start.array_violated"
   ],
   "note": "Proved for lists and tuples. Refuted: arrays are refused with a TypeError."
  },
  {
   "property": "C174",
   "status": "partial",
   "theorems": [
    "Zfit.Hs3.distinct_names_partial",
    "Zfit.Hs3.first_kept_partial",
    "Zfit.Hs3.three_alike_violated"
   ],
   "note": "Proved for objects with different names, and for the first object of each name. Refuted for three of the same name if addresses are used again."
  },
  {
   "property": "C175",
   "status": "proved",
   "theorems": [
    "Zfit.Hs3.shared"
   ],
   "note": ""
  },
  {
   "property": "C176",
   "status": "proved",
   "theorems": [
    "Zfit.Hs3.reused"
   ],
   "note": ""
  },
  {
   "property": "C177",
   "status": "proved",
   "theorems": [
    "Zfit.Hs3.loads_independent"
   ],
   "note": ""
  },
  {
   "property": "C178",
   "status": "partial",
   "theorems": [
    "Zfit.Hs3.round_trip_partial",
    "Zfit.Hs3.same_name_violated"
   ],
   "note": "Proved if no two of the parameters have the same name. Refuted otherwise: they are merged."
  },
  {
   "property": "C179",
   "status": "partial",
   "theorems": [
    "Zfit.Hs3.argument_partial",
    "Zfit.Hs3.observable_removed_violated"
   ],
   "note": "What is changed is characterised. Refuted for all documents with observables: they are removed."
  },
  {
   "property": "C180",
   "status": "proved",
   "theorems": [
    "Zfit.Hs3.load_again"
   ],
   "note": ""
  },
  {
   "property": "C181",
   "status": "partial",
   "theorems": [
    "Zfit.Hs3.density_partial",
    "Zfit.Hs3.density_sum",
    "Zfit.Hs3.norm_lost_violated"
   ],
   "note": "Proved for PDFs normalised over their space and their sums. Refuted for PDFs with a norm of their own."
  },
  {
   "property": "C182",
   "status": "partial",
   "theorems": [
    "Zfit.Hs3.yield_partial",
    "Zfit.Hs3.sum_not_extended_violated",
    "Zfit.Hs3.sum_extended_true_violated"
   ],
   "note": "Proved for basic PDFs and sums with fractions. Refuted for all sums of extended PDFs without fractions."
  },
  {
   "property": "C183",
   "status": "proved",
   "theorems": [
    "Zfit.Acc.params_by_name"
   ],
   "note": ""
  },
  {
   "property": "C184",
   "status": "partial",
   "theorems": [
    "Zfit.Acc.values_partial",
    "Zfit.Acc.frozen_values_violated",
    "Zfit.Acc.absent_violated",
    "Zfit.Acc.shared_violated"
   ],
   "note": "Proved as long as the result is not frozen. Refuted: frozen results, parameters that are not in the result, and a later change of the dictionary given by the caller."
  },
  {
   "property": "C185",
   "status": "proved",
   "theorems": [
    "Zfit.Acc.freeze_keeps"
   ],
   "note": ""
  },
  {
   "property": "C186",
   "status": "partial",
   "theorems": [
    "Zfit.Acc.freeze_atomic_partial",
    "Zfit.Acc.freeze_half_violated"
   ],
   "note": "Proved for results with a criterion, for all histories. Refuted without a criterion."
  },
  {
   "property": "C187",
   "status": "partial",
   "theorems": [
    "Zfit.Acc.gradient_partial",
    "Zfit.Acc.gradient_unknown_violated",
    "Zfit.Acc.gradient_twice_violated"
   ],
   "note": "Proved for different parameters that the gradient was calculated with. Refuted: others are left out silently."
  },
  {
   "property": "C188",
   "status": "partial",
   "theorems": [
    "Zfit.Acc.inverse_partial",
    "Zfit.Acc.no_invert_violated"
   ],
   "note": "Proved for invert=True. Refuted for invert=False."
  },
  {
   "property": "C189",
   "status": "partial",
   "theorems": [
    "Zfit.Acc.approx_covariance_partial",
    "Zfit.Acc.order_violated"
   ],
   "note": "Proved if the approximations have the parameters in the order of the result. Refuted for other orders."
  },
  {
   "property": "C190",
   "status": "partial",
   "theorems": [
    "Zfit.Acc.sources_partial",
    "Zfit.Acc.nlopt_inverse",
    "Zfit.Acc.evaluator_ignored_violated",
    "Zfit.Acc.nlopt_hessian_violated"
   ],
   "note": "Proved without info, and for what is in the mapping or in info. Refuted: with an info the evaluator is ignored; from_nlopt drops the Hessian."
  },
  {
   "property": "C191",
   "status": "partial",
   "theorems": [
    "Zfit.Acc.mapping_kept_partial",
    "Zfit.Acc.mapping_changed_violated"
   ],
   "note": "Proved for mappings with all entries. Refuted for others."
  },
  {
   "property": "C192",
   "status": "partial",
   "theorems": [
    "Zfit.Acc.message_partial",
    "Zfit.Acc.not_converged_violated",
    "Zfit.Acc.status_violated"
   ],
   "note": "Proved for results without a message of the caller that are not said not to have converged. Refuted otherwise, and for the status of results at a limit."
  },
  {
   "property": "C193",
   "status": "partial",
   "theorems": [
    "Zfit.Own.declared_norm_partial",
    "Zfit.Own.both_names_violated",
    "Zfit.Own.other_name_violated"
   ],
   "note": "Proved for methods with a parameter norm and no norm_range. Refuted: with both, a space without limits gives an IndexError; with another name, the method is run with any norm."
  },
  {
   "property": "C194",
   "status": "proved",
   "theorems": [
    "Zfit.Own.declared_limits",
    "Zfit.Own.limits_reach"
   ],
   "note": "That the body is run at all if norm and limits are supported (limits_reach): for bodies that do not themselves raise a TypeError about an unexpected keyword."
  },
  {
   "property": "C195",
   "status": "partial",
   "theorems": [
    "Zfit.Own.called_once_partial",
    "Zfit.Own.run_twice_violated"
   ],
   "note": "Proved for bodies that do not themselves raise a TypeError about an unexpected keyword. Refuted for those: the body is run a second time."
  },
  {
   "property": "C196",
   "status": "partial",
   "theorems": [
    "Zfit.Own.pdf_class_partial",
    "Zfit.Own.binned_class",
    "Zfit.Own.minimizer_class",
    "Zfit.Own.plain_pdf_violated"
   ],
   "note": "Proved for all hooks but _pdf. Refuted for _pdf of unbinned PDFs, which only gives a warning."
  },
  {
   "property": "C197",
   "status": "proved",
   "theorems": [
    "Zfit.Own.own_integrals",
    "Zfit.Own.own_inverse"
   ],
   "note": ""
  },
  {
   "property": "C198",
   "status": "proved",
   "theorems": [
    "Zfit.Own.simple_params",
    "Zfit.Own.simple_class"
   ],
   "note": ""
  },
  {
   "property": "C199",
   "status": "partial",
   "theorems": [
    "Zfit.Pdf.ext_log_pdf_partial",
    "Zfit.Pdf.ext_log_pdf_violated"
   ],
   "note": "Proved for hooks that support the norm they are called with. Refuted for _ext_log_pdf decorated with supports()."
  },
  {
   "property": "C200",
   "status": "partial",
   "theorems": [
    "Zfit.Own.binned_obs_partial",
    "Zfit.Own.positional_obs_violated",
    "Zfit.Own.norm_limits_violated",
    "Zfit.Own.no_name_violated"
   ],
   "note": "Proved for observables by keyword and norms that are spaces. Refuted for positional observables, for norms given as limits and for the name."
  },
  {
   "property": "C201",
   "status": "partial",
   "theorems": [
    "Zfit.Own.truncated_yield_partial",
    "Zfit.Own.rename_forever_violated"
   ],
   "note": "Proved if no parameter is called wrapped_yield. Refuted otherwise: the constructor never returns."
  },
  {
   "property": "C202",
   "status": "partial",
   "theorems": [
    "Zfit.Own.projection_partial",
    "Zfit.Own.projection_disjoint",
    "Zfit.Own.projection_yield",
    "Zfit.Own.neither_violated",
    "Zfit.Own.foreign_violated"
   ],
   "note": "Proved if one of obs and limits is given, with observables of the PDF; disjointness and the yield always. Refuted if both are given and do not cover all observables, and for observables the PDF does not have."
  },
  {
   "property": "C203",
   "status": "partial",
   "theorems": [
    "Zfit.Own.as_func_partial",
    "Zfit.Own.as_func_violated"
   ],
   "note": "Proved for the value, and for the parameters of PDFs that are not built of others. Refuted for sums."
  },
  {
   "property": "C204",
   "status": "partial",
   "theorems": [
    "Zfit.Frame.pandas_roundtrip_partial",
    "Zfit.Frame.pandas_columns",
    "Zfit.Frame.weightsname_violated"
   ],
   "note": "Proved if the name for the weights is not that of an observable. Refuted otherwise."
  },
  {
   "property": "C205",
   "status": "partial",
   "theorems": [
    "Zfit.Frame.from_pandas_partial",
    "Zfit.Frame.from_pandas_all_columns",
    "Zfit.Frame.from_pandas_refused",
    "Zfit.Frame.weights_observable_violated",
    "Zfit.Frame.series_violated"
   ],
   "note": "Proved for DataFrames, for spaces with one piece or one dimension, and weights that are not also an observable. Refuted for weights that are an observable and for a Series without obs (several pieces: see C18)."
  },
  {
   "property": "C206",
   "status": "partial",
   "theorems": [
    "Zfit.Frame.from_root_partial",
    "Zfit.Frame.from_root_missing",
    "Zfit.Frame.alias_alone_violated"
   ],
   "note": "Proved with obs. Refuted for obs_alias without obs."
  },
  {
   "property": "C207",
   "status": "partial",
   "theorems": [
    "Zfit.Frame.reads_partial",
    "Zfit.Frame.unknown_refused",
    "Zfit.Frame.unknown_dropped_violated",
    "Zfit.Frame.axes_violated",
    "Zfit.Frame.always_list_violated"
   ],
   "note": "Proved for all sequences of reads of existing names and single axes. Refuted for unknown names next to known ones, several axes, and always_list without names."
  },
  {
   "property": "C208",
   "status": "partial",
   "theorems": [
    "Zfit.Lims.contains_iff_partial",
    "Zfit.Lims.reorder_keeps",
    "Zfit.Lims.with_obs_cuts_violated"
   ],
   "note": "Proved for all histories in which with_obs does not cut a function. Refuted for with_obs with only some observables of a function: the limit is lost or the space unusable."
  },
  {
   "property": "C209",
   "status": "proved",
   "theorems": [
    "Zfit.Lims.subspace_decision",
    "Zfit.Lims.subspace_limits"
   ],
   "note": ""
  },
  {
   "property": "C210",
   "status": "proved",
   "theorems": [
    "Zfit.Lims.ways_agree",
    "Zfit.Lims.number_ways_agree",
    "Zfit.Lims.rectangle_accepted",
    "Zfit.Lims.limits_given"
   ],
   "note": ""
  },
  {
   "property": "C211",
   "status": "partial",
   "theorems": [
    "Zfit.Lims.bins_cover_partial",
    "Zfit.Lims.limits_and_axes_violated",
    "Zfit.Lims.new_limits_violated",
    "Zfit.Lims.axes_order_violated"
   ],
   "note": "Proved for histories in which limits and bins come from one another. Refuted for limits and axes given independently, new limits of a binned space, and axes in another order than the observables."
  },
  {
   "property": "C212",
   "status": "partial",
   "theorems": [
    "Zfit.Lims.convert_one",
    "Zfit.Lims.convert_several",
    "Zfit.Lims.convert_space_kept",
    "Zfit.Lims.convert_space_new",
    "Zfit.Lims.convert_two_spaces_partial",
    "Zfit.Lims.convert_two_spaces_same",
    "Zfit.Lims.obs_ignored_violated",
    "Zfit.Lims.function_limits_violated"
   ],
   "note": "Proved except for observables with a space as limits and for a space whose limits are a function, for which it is refuted."
  },
  {
   "property": "C213",
   "status": "partial",
   "theorems": [
    "Zfit.Sp.combine_unions_partial",
    "Zfit.Sp.pieces_order_violated",
    "Zfit.Sp.pieces_dropped_violated"
   ],
   "note": "Proved for unions without a common observable. Refuted otherwise."
  },
  {
   "property": "C214",
   "status": "partial",
   "theorems": [
    "Zfit.Lims.with_obs_keeps_bins_partial",
    "Zfit.Lims.subspace_binning_violated"
   ],
   "note": "Proved for with_obs, refuted for get_subspace."
  },
  {
   "property": "C215",
   "status": "partial",
   "theorems": [
    "Zfit.Lims.too_many_positional_partial",
    "Zfit.Lims.one_side_violated",
    "Zfit.Lims.two_ways_violated",
    "Zfit.Lims.numpy_numbers_violated"
   ],
   "note": "Proved for too many positional arguments, refuted otherwise."
  },
  {
   "property": "C216",
   "status": "proved",
   "theorems": [
    "Zfit.Plot.curve_shows_density",
    "Zfit.Plot.curve_refused"
   ],
   "note": ""
  },
  {
   "property": "C217",
   "status": "partial",
   "theorems": [
    "Zfit.Plot.height_in_range_partial",
    "Zfit.Plot.height_in_range_violated",
    "Zfit.Plot.other_observable_violated"
   ],
   "note": "Proved for PDFs of one observable and their observable. Refuted for PDFs of several observables (the projection is normalised over the range drawn) and for other observables."
  },
  {
   "property": "C218",
   "status": "partial",
   "theorems": [
    "Zfit.Plot.components_add_up_partial",
    "Zfit.Plot.components_of_yields_partial",
    "Zfit.Plot.components_of_yield_violated",
    "Zfit.Plot.components_add_up_violated"
   ],
   "note": "Proved where the density is drawn. Refuted for extended sums drawn with their yield."
  },
  {
   "property": "C219",
   "status": "partial",
   "theorems": [
    "Zfit.Plot.options_given_partial",
    "Zfit.Plot.defaults_fill_partial",
    "Zfit.Plot.label_of_curve_partial",
    "Zfit.Plot.options_given_violated",
    "Zfit.Plot.own_function_violated",
    "Zfit.Plot.plotkwargs_changed_violated"
   ],
   "note": "Proved without defaults and for labels of single curves. Refuted: defaults replace options given, the function given is not called, the dictionary of the caller is changed."
  },
  {
   "property": "C220",
   "status": "proved",
   "theorems": [
    "Zfit.Phys.voigt_symmetric",
    "Zfit.Phys.voigt_shift",
    "Zfit.Phys.voigt_scale"
   ],
   "note": "Real arithmetic."
  },
  {
   "property": "C221",
   "status": "proved",
   "theorems": [
    "Zfit.Phys.voigt_defined"
   ],
   "note": "Real arithmetic."
  },
  {
   "property": "C222",
   "status": "partial",
   "theorems": [
    "Zfit.Phys.voigt_tail_positive_partial",
    "Zfit.Phys.voigt_positive_violated",
    "Zfit.Phys.voigt_zero_violated"
   ],
   "note": "Proved in the tails for gamma > 0. Refuted for very small gamma near the peak and for gamma = 0 in the tails. Missing: the region around the peak for other gamma."
  },
  {
   "property": "C223",
   "status": "partial",
   "theorems": [
    "Zfit.Kde.fft_values",
    "Zfit.Kde.fft_is_mean_partial",
    "Zfit.Kde.fft_cut_violated"
   ],
   "note": "fft_values gives the values for every support: the kernel is cut at the support times the bandwidth. Proved without the cut where the support covers the grid; refuted for the default of the support."
  },
  {
   "property": "C224",
   "status": "partial",
   "theorems": [
    "Zfit.Kde.fft_unit_partial",
    "Zfit.Kde.fft_unit_violated"
   ],
   "note": "Proved with a number as support; refuted for the default, which is the volume of the space times 1.2."
  },
  {
   "property": "C225",
   "status": "proved",
   "theorems": [
    "Zfit.Kde.fft_nonneg"
   ],
   "note": "Linear binning, fft_method conv1d."
  },
  {
   "property": "C226",
   "status": "partial",
   "theorems": [
    "Zfit.Kde.fft_far_partial",
    "Zfit.Kde.fft_beyond_violated",
    "Zfit.Kde.fft_beyond_positive_violated"
   ],
   "note": "Proved between the ends of the grid; refuted beyond, where the density is constant."
  },
  {
   "property": "C227",
   "status": "partial",
   "theorems": [
    "Zfit.Kde.fft_method_violated",
    "Zfit.Kde.fft_method_shift_violated"
   ],
   "note": "Refuted: every other method raises unless the kernel reaches exactly across the grid, and is then shifted by one point."
  },
  {
   "property": "C228",
   "status": "proved",
   "theorems": [
    "Zfit.Kde.isj_smoothed",
    "Zfit.Kde.standing_mirrored"
   ],
   "note": "Real arithmetic; the search for the root is a parameter."
  },
  {
   "property": "C229",
   "status": "partial",
   "theorems": [
    "Zfit.Kde.isj_bandwidth_violated"
   ],
   "note": "Refuted for all samples: the width of the smoothing is more than twice the bandwidth reported."
  },
  {
   "property": "C230",
   "status": "partial",
   "theorems": [
    "Zfit.Kde.isj_unit_partial",
    "Zfit.Kde.isj_unit_violated",
    "Zfit.Kde.isj_sample_violated"
   ],
   "note": "Proved for samples at least 12 wide in both units; refuted for narrow ones."
  },
  {
   "property": "C231",
   "status": "partial",
   "theorems": [
    "Zfit.Kde.adaptive_grid_partial",
    "Zfit.Kde.adaptive_unweighted_partial",
    "Zfit.Kde.adaptive_weights_violated",
    "Zfit.Kde.adaptive_first_estimate_partial",
    "Zfit.Kde.adaptive_unweighted",
    "Zfit.Kde.adaptive_ratio",
    "Zfit.Kde.adaptive_sample_violated"
   ],
   "note": "Proved on grids and without weights (with the exact KDE with Silverman's bandwidth as the first estimate); refuted for the exact KDEs with weights, whose pilot density drops the weights: shown for a concrete sample and all three rules."
  },
  {
   "property": "C232",
   "status": "partial",
   "theorems": [
    "Zfit.Own.integral_called_once_partial",
    "Zfit.Own.integral_error_violated"
   ],
   "note": "Proved for functions with required arguments that raise no TypeError; refuted for functions that do, whose error becomes an AssertionError."
  },
  {
   "property": "C233",
   "status": "partial",
   "theorems": [
    "Zfit.Own.integral_norm_partial",
    "Zfit.Own.integral_norm_violated"
   ],
   "note": "Proved for functions with required arguments; refuted where the norm has a default."
  },
  {
   "property": "C234",
   "status": "proved",
   "theorems": [
    "Zfit.Run.warned_once"
   ],
   "note": "All histories."
  },
  {
   "property": "C235",
   "status": "partial",
   "theorems": [
    "Zfit.Run.feature_warned_partial",
    "Zfit.Run.looking_violated"
   ],
   "note": "Proved for histories in which only settings that exist are looked at; refuted otherwise: looking makes an empty entry that switches the warning off."
  },
  {
   "property": "C236",
   "status": "partial",
   "theorems": [
    "Zfit.Run.removed_partial",
    "Zfit.Run.removed_violated"
   ],
   "note": "The number of warnings is the number of removals minus three: never before the fourth removal, but again at each one after."
  },
  {
   "property": "C237",
   "status": "proved",
   "theorems": [
    "Zfit.Run.n_cpu_is_last_asked"
   ],
   "note": "All histories outside of aquire_cpu, for which see C47."
  },
  {
   "property": "C238",
   "status": "partial",
   "theorems": [
    "Zfit.Run.raising_keeps_partial",
    "Zfit.Run.raising_changes_violated"
   ],
   "note": "Proved for numbers of the wrong type; refuted for calls after a computation."
  },
  {
   "property": "C239",
   "status": "partial",
   "theorems": [
    "Zfit.Run.strict_threads_partial",
    "Zfit.Run.threads_violated",
    "Zfit.Run.unstrict_violated"
   ],
   "note": "Proved for strict calls; refuted for others, which set nothing and do not undo a strict call."
  },
  {
   "property": "C240",
   "status": "partial",
   "theorems": [
    "Zfit.Run.changing_violated"
   ],
   "note": "Refuted for all identifiers: the wrong set is looked at."
  },
  {
   "property": "C241",
   "status": "partial",
   "theorems": [
    "Zfit.Loss.create_new_partial",
    "Zfit.Loss.create_new_more_violated",
    "Zfit.Loss.create_new_array_violated"
   ],
   "note": "Proved for as many models and fit ranges as datasets and for Data; refuted for more datasets than before and for arrays in unbinned losses."
  },
  {
   "property": "C242",
   "status": "partial",
   "theorems": [
    "Zfit.Loss.comparable_partial",
    "Zfit.Loss.comparable_fresh_violated",
    "Zfit.Loss.comparable_constraints_violated"
   ],
   "note": "Proved after an evaluation and for the same constraints in binned losses; refuted otherwise."
  },
  {
   "property": "C243",
   "status": "partial",
   "theorems": [
    "Zfit.Loss.simple_create_new_partial",
    "Zfit.Loss.simple_errordef_violated",
    "Zfit.Loss.simple_gradient_violated"
   ],
   "note": "Proved for functions without the attribute and with numerical derivatives; refuted otherwise."
  },
  {
   "property": "C244",
   "status": "proved",
   "theorems": [
    "Zfit.Loss.own_options"
   ],
   "note": "All histories."
  },
  {
   "property": "C245",
   "status": "partial",
   "theorems": [
    "Zfit.Loss.user_options_partial",
    "Zfit.Loss.user_options_violated"
   ],
   "note": "Proved for all losses but chi2; refuted for chi2, which completes the dictionary."
  },
  {
   "property": "C246",
   "status": "proved",
   "theorems": [
    "Zfit.Loss.options_of_new"
   ],
   "note": "All histories and options."
  },
  {
   "property": "C247",
   "status": "proved",
   "theorems": [
    "Zfit.Loss.converter_of_highest_priority",
    "Zfit.Loss.no_converter"
   ],
   "note": "All sequences of registrations."
  },
  {
   "property": "C248",
   "status": "partial",
   "theorems": [
    "Zfit.Loss.from_any_partial",
    "Zfit.Loss.default_converter_violated"
   ],
   "note": "Proved for converters that return a loss or False; refuted for the one zfit registers, which returns None on most TypeErrors."
  },
  {
   "property": "C249",
   "status": "proved",
   "theorems": [
    "Zfit.Sub.pdf_class",
    "Zfit.Sub.func_class",
    "Zfit.Sub.no_overrides"
   ],
   "note": ""
  },
  {
   "property": "C250",
   "status": "proved",
   "theorems": [
    "Zfit.Sub.minimizer_class"
   ],
   "note": ""
  },
  {
   "property": "C251",
   "status": "partial",
   "theorems": [
    "Zfit.Sub.binned_class_partial",
    "Zfit.Sub.binned_class_violated"
   ],
   "note": "The check written for binned PDFs is never called (refuted); correct classes are accepted."
  },
  {
   "property": "C252",
   "status": "proved",
   "theorems": [
    "Zfit.Sub.simple_class",
    "Zfit.Sub.simple_instance",
    "Zfit.Sub.simple_refused"
   ],
   "note": ""
  },
  {
   "property": "C253",
   "status": "proved",
   "theorems": [
    "Zfit.Sup.init_seen",
    "Zfit.Sup.init_hidden",
    "Zfit.Sup.without_init",
    "Zfit.Sup.init_flag"
   ],
   "note": ""
  },
  {
   "property": "C254",
   "status": "partial",
   "theorems": [
    "Zfit.Sup.own_result_partial",
    "Zfit.Sup.empty_result_violated",
    "Zfit.Sup.stale_result_violated"
   ],
   "note": "Proved for strategies given as classes, except that DefaultToyStrategy swallows a RuntimeError of the loss and returns an empty result (refuted); an instance returns the result of an earlier minimisation (refuted)."
  },
  {
   "property": "C255",
   "status": "partial",
   "theorems": [
    "Zfit.Sup.maxiter_partial",
    "Zfit.Sup.maxiter_property_violated"
   ],
   "note": "The property maxiter raises outside of a minimisation even if a number was given (refuted)."
  },
  {
   "property": "C256",
   "status": "partial",
   "theorems": [
    "Zfit.Sup.derivatives_partial",
    "Zfit.Sup.subclass_violated",
    "Zfit.Sup.shared_violated"
   ],
   "note": "Proved for direct subclasses of ScipyBaseMinimizer. Refuted: a minimiser with a list of methods cannot be subclassed (AttributeError), and lists can be shared."
  },
  {
   "property": "C257",
   "status": "proved",
   "theorems": [
    "Zfit.Auto.numeric_exact"
   ],
   "note": "Choice of integrator, options for bins and Simpson rule over all pieces."
  },
  {
   "property": "C258",
   "status": "proved",
   "theorems": [
    "Zfit.Auto.numeric_bounds",
    "Zfit.Auto.numeric_constant",
    "Zfit.Auto.partial_bounds"
   ],
   "note": "All branches: Simpson, loop, one batch, chunks, partial integrals. The points of the sequence are any points of the unit cube."
  },
  {
   "property": "C259",
   "status": "proved",
   "theorems": [
    "Zfit.Auto.numeric_evaluations"
   ],
   "note": "Counts the points in every branch."
  },
  {
   "property": "C260",
   "status": "partial",
   "theorems": [
    "Zfit.Auto.partial_evaluations_partial",
    "Zfit.Auto.partial_options_violated",
    "Zfit.Auto.sampler_violated"
   ],
   "note": "Refuted: mc_integrate calls itself for each event without the options, and never looks at mc_sampler."
  },
  {
   "property": "C261",
   "status": "proved",
   "theorems": [
    "Zfit.Loss.poisson_term_close",
    "Zfit.Loss.poisson_term_shift",
    "Zfit.Loss.extended_nll_poisson"
   ],
   "note": "Bounds of the Stirling approximation that tf.nn.log_poisson_loss uses, from the Stirling sequence in Mathlib."
  },
  {
   "property": "C262",
   "status": "proved",
   "theorems": [
    "Zfit.AutoGrad.gradient_is_derivative"
   ],
   "note": "Reverse mode as pairs of value and pull-back, on top of the model of the integrators. Numbers of points locally constant is a hypothesis of the property."
  },
  {
   "property": "C263",
   "status": "partial",
   "theorems": [
    "Zfit.AutoGrad.chunked_gradient_partial",
    "Zfit.AutoGrad.chunked_gradient_violated"
   ],
   "note": "Refuted: the custom gradient of normalization_chunked ignores the incoming derivative, so the factor of the outer function and the volume are lost."
  },
  {
   "property": "C264",
   "status": "proved",
   "theorems": [
    "Zfit.Tape.gradient_is_partial_derivatives"
   ],
   "note": "TensorFlow's tape as an expression graph with its documented rules."
  },
  {
   "property": "C265",
   "status": "partial",
   "theorems": [
    "Zfit.Tape.gradient_exists_partial",
    "Zfit.Tape.gradient_exists_violated"
   ],
   "note": "Refuted: a parameter that is not read has the gradient None and the conversion to a tensor raises."
  },
  {
   "property": "C266",
   "status": "proved",
   "theorems": [
    "Zfit.Tape.hessian_is_second_derivatives"
   ],
   "note": "Second derivatives from the smoothness of the recorded gradients, symmetry from the symmetry of the second Fr\u00e9chet derivative."
  },
  {
   "property": "C267",
   "status": "partial",
   "theorems": [
    "Zfit.Tape.hessian_exists_partial",
    "Zfit.Tape.hessian_exists_violated"
   ],
   "note": "Refuted: a linear function has no Hessian, and p0*p1 none with hessian=\"diag\"."
  },
  {
   "property": "C268",
   "status": "proved",
   "theorems": [
    "Zfit.Sample.sample_follows_pdf",
    "Zfit.Sample.sampling_ends"
   ],
   "note": "Proposals and thresholds are independent under a product measure; the passes are flattened to one sequence of trials."
  },
  {
   "property": "C269",
   "status": "proved",
   "theorems": [
    "Zfit.Sample.accepted_independently"
   ],
   "note": "The thresholds follow the product of uniform measures; the proposals are arbitrary."
  },
  {
   "property": "C270",
   "status": "partial",
   "theorems": [
    "Zfit.Sample.default_sample_follows_pdf_partial",
    "Zfit.Sample.default_sample_follows_pdf_violated"
   ],
   "note": "Holds from any pass on before which the scaling covers the pdf. Refuted in general: a narrow peak that no proposal of the first pass hits."
  },
  {
   "property": "C271",
   "status": "proved",
   "theorems": [
    "Zfit.Dat.with_weights"
   ],
   "note": "Data created from an array; views of the result included."
  },
  {
   "property": "C272",
   "status": "partial",
   "theorems": [
    "Zfit.Dat.set_weights_partial",
    "Zfit.Dat.set_weights_violated"
   ],
   "note": "Refuted: the number of weights is not checked."
  },
  {
   "property": "C273",
   "status": "proved",
   "theorems": [
    "Zfit.Sample.split_near_share",
    "Zfit.Sample.proposals_uniform"
   ],
   "note": "Random numbers as a product of uniform measures."
  },
  {
   "property": "C274",
   "status": "partial",
   "theorems": [
    "Zfit.Sample.expected_accepted",
    "Zfit.Sample.expected_accepted_partial",
    "Zfit.Sample.narrow_piece_violated"
   ],
   "note": "The exact expectation for one pass; proportional to the integral if no number of proposals is rounded. Refuted: a piece with less than 1/800000 of the volume never gets an event."
  },
  {
   "property": "C275",
   "status": "proved",
   "theorems": [
    "Zfit.Sample.limits_sample_law"
   ],
   "note": "The multinomial draw, the integrals and the law of events within a piece are hypotheses."
  },
  {
   "property": "C276",
   "status": "proved",
   "theorems": [
    "Zfit.Dist.wrapped_sample_law",
    "Zfit.Dist.wrapped_limits_law",
    "Zfit.Dist.uniform_lawful"
   ],
   "note": "The cdf and quantile of the library are hypotheses (Lawful); the uniform distribution is shown to meet them."
  },
  {
   "property": "C277",
   "status": "proved",
   "theorems": [
    "Zfit.Sample.inverse_sample_law",
    "Zfit.Sample.inverse_sample_refused"
   ],
   "note": "One observable; the integral from minus infinity and that the registered function is its inverse are hypotheses."
  },
  {
   "property": "C278",
   "status": "proved",
   "theorems": [
    "Zfit.Sample.call_sample_order"
   ],
   "note": ""
  },
  {
   "property": "C279",
   "status": "partial",
   "theorems": [
    "Zfit.BinPdf.counts_for_bins_partial",
    "Zfit.BinPdf.counts_of_events",
    "Zfit.BinPdf.counts_cycle_violated",
    "Zfit.BinPdf.counts_other_binning_violated"
   ],
   "note": "Proved for the bins of the PDF in any order that exchanges disjoint pairs of observables, and for unbinned data; refuted for cyclic orders of three observables and for other binnings, which are ignored."
  },
  {
   "property": "C280",
   "status": "partial",
   "theorems": [
    "Zfit.BinPdf.loss_pairs_bins_partial",
    "Zfit.BinPdf.loss_shape_checked_partial",
    "Zfit.BinPdf.loss_other_binning_violated",
    "Zfit.BinPdf.loss_broadcast_violated"
   ],
   "note": "Proved for data with the bins of the PDF (orders as C279); refuted for data with other edges, which is accepted, and for chi2 with a single bin."
  },
  {
   "property": "C281",
   "status": "proved",
   "theorems": [
    "Zfit.BinPdf.binned_sample_multinomial",
    "Zfit.BinPdf.binned_sample_poisson",
    "Zfit.BinPdf.binned_sample_not_extended"
   ],
   "note": "The random number generators are the laws they stand for."
  },
  {
   "property": "C282",
   "status": "partial",
   "theorems": [
    "Zfit.BinPdf.sample_params_partial",
    "Zfit.BinPdf.sample_params_violated"
   ],
   "note": "Proved if n is given or the yield is the same; refuted for another yield without n: the number of events follows the current yield."
  },
  {
   "property": "C283",
   "status": "partial",
   "theorems": [
    "Zfit.BinPdf.sample_limits_partial",
    "Zfit.BinPdf.sample_limits_refused",
    "Zfit.BinPdf.sample_binning_violated"
   ],
   "note": "Proved for the bins of the PDF (orders as C279); other ranges or observables are refused; refuted for other edges within the same range."
  },
  {
   "property": "C284",
   "status": "proved",
   "theorems": [
    "Zfit.Sp.norm_default",
    "Zfit.Sp.norm_at_creation_numbers",
    "Zfit.Sp.norm_at_creation_space",
    "Zfit.Sp.norm_at_creation_false",
    "Zfit.Sp.norm_default_axes",
    "Zfit.Sp.norm_at_creation_axes"
   ],
   "note": "Rectangular spaces in one piece."
  },
  {
   "property": "C285",
   "status": "partial",
   "theorems": [
    "Zfit.Sp.norm_call_partial",
    "Zfit.Sp.limits_in_call_by_name",
    "Zfit.Sp.norm_call_numbers_violated",
    "Zfit.Sp.norm_call_space_violated"
   ],
   "note": "Proved for False, limits of one observable and spaces with the observables of the PDF; refuted for limits of several observables as numbers (refused in the call) and for spaces of some observables (accepted in the call)."
  },
  {
   "property": "C286",
   "status": "partial",
   "theorems": [
    "Zfit.Functor.to_truncated_same_partial",
    "Zfit.Functor.to_truncated_values_partial",
    "Zfit.Functor.to_truncated_default",
    "Zfit.Functor.to_truncated_norm_violated"
   ],
   "note": "Proved with a norm, or if the limits are inside the norm of the original PDF; refuted for another space without a norm: the norm stays that of the original PDF."
  },
  {
   "property": "C287",
   "status": "partial",
   "theorems": [
    "Zfit.Sp.union_eq_iff_partial",
    "Zfit.Sp.union_eq_order",
    "Zfit.Sp.union_eq_of_pieces",
    "Zfit.Sp.union_eq_tolerance_violated",
    "Zfit.Sp.union_eq_symm_violated",
    "Zfit.Sp.union_eq_repeated_violated",
    "Zfit.Sp.union_hash_violated"
   ],
   "note": "Proved: the exact answer, with the relative tolerance the code uses, for unions without axes. Refuted: this tolerance is neither symmetric nor that of the pieces as spaces, repeated pieces are not counted, hashes depend on the order of observables."
  },
  {
   "property": "C288",
   "status": "proved",
   "theorems": [
    "Zfit.Zh.safe_where_value",
    "Zfit.Zh.safe_where_grad",
    "Zfit.Zh.safe_where_grad_custom",
    "Zfit.Zh.plain_where_grad_nan",
    "Zfit.Zh.safe_where_grad_needs_safe"
   ],
   "note": "Finite numbers are exact, everything else is one value that spoils sums and products; TensorFlow's gradient of where (zero to the branch not taken) is trusted."
  },
  {
   "property": "C289",
   "status": "proved",
   "theorems": [
    "Zfit.Zh.run_no_nan_spec",
    "Zfit.Zh.run_no_nan_pointwise",
    "Zfit.Zh.run_no_nan_second_call"
   ],
   "note": "Real values; the dataset is its list of events."
  },
  {
   "property": "C290",
   "status": "proved",
   "theorems": [
    "Zfit.Zh.nth_pow_eq",
    "Zfit.Zh.poly_complex_eq",
    "Zfit.Zh.poly_complex_errors"
   ],
   "note": "Exact arithmetic in any commutative ring; TensorFlow's power is the exact one."
  },
  {
   "property": "C291",
   "status": "proved",
   "theorems": [
    "Zfit.Zh.sample_with_replacement_spec",
    "Zfit.Zh.sample_with_replacement_errors"
   ],
   "note": "The integers drawn are arbitrary numbers below the length of the axis."
  },
  {
   "property": "C292",
   "status": "partial",
   "theorems": [
    "Zfit.Kde.bw_default",
    "Zfit.Kde.bw_by_name",
    "Zfit.Kde.bw_other_names",
    "Zfit.Kde.bw_given",
    "Zfit.Kde.bw_callable",
    "Zfit.Kde.bw_array_exact_partial",
    "Zfit.Kde.bw_array_grid",
    "Zfit.Kde.bw_reported_partial",
    "Zfit.Kde.bw_array_events_violated",
    "Zfit.Kde.bw_array_padding_violated",
    "Zfit.Kde.bw_reported_violated",
    "Zfit.Kde.bw_array_one"
   ],
   "note": "Refuted: the classes on a grid refuse one bandwidth per event (they want one per grid point), arrays per grid point fail with padding, and the parameter is -999999 for arrays and adaptive rules. The rest is proved."
  },
  {
   "property": "C293",
   "status": "proved",
   "theorems": [
    "Zfit.Lab.labels_follow",
    "Zfit.Lab.labels_default",
    "Zfit.Lab.labels_number",
    "Zfit.Lab.labels_transparent",
    "Zfit.Lab.labels_dropped",
    "Zfit.Lab.label_single",
    "Zfit.Lab.label_several"
   ],
   "note": "Observables without repetition; binning and functional limits are not modelled."
  },
  {
   "property": "C294",
   "status": "partial",
   "theorems": [
    "Zfit.Lab.product_labels_partial",
    "Zfit.Lab.product_agreeing",
    "Zfit.Lab.product_default_wins_violated",
    "Zfit.Lab.product_axes_labels_violated",
    "Zfit.Lab.product_dropped_labels_violated",
    "Zfit.Lab.union_labels_violated"
   ],
   "note": "Proved: with observables the labels do not decide whether spaces combine and the last space wins. Refuted: a default label of a later space overrides a given one, spaces with axes only and labels fail, unions lose all labels. How limits of spaces with axes only are combined is a parameter."
  },
  {
   "property": "C295",
   "status": "partial",
   "theorems": [
    "Zfit.Kde.isj_equation_partial",
    "Zfit.Kde.derivativeNorm_quarter",
    "Zfit.Kde.density_is_wave",
    "Zfit.Kde.isj_root_exists",
    "Zfit.Kde.isj_norm_violated",
    "Zfit.Kde.isj_time_violated",
    "Zfit.Kde.isj_root_violated"
   ],
   "note": "Proved: the equation with a quarter of every norm. Refuted: the norms are a quarter of the integrals, so a root of the code is never a solution and the bandwidth is too large."
  },
  {
   "property": "C296",
   "status": "partial",
   "theorems": [
    "Zfit.ParF.set_inside_partial",
    "Zfit.ParF.set_at_limit_partial",
    "Zfit.ParF.set_outside",
    "Zfit.ParF.set_infinite",
    "Zfit.ParF.set_nan_violated",
    "Zfit.ParF.set_big_limit_violated",
    "Zfit.ParF.set_equal_limits_violated",
    "Zfit.ParF.set_graph_violated"
   ],
   "note": "Proved strictly within the limits and for limits of moderate size. Refuted: NaN is accepted in eager mode, upper limits of at least 2^30 and equal limits cannot be set (the tolerance is lost), graph mode refuses the limits. Overflow and denormal numbers are not modelled."
  },
  {
   "property": "C297",
   "status": "partial",
   "theorems": [
    "Zfit.ParF.value_within",
    "Zfit.ParF.value_clipped_partial",
    "Zfit.ParF.value_error_partial",
    "Zfit.ParF.value_far_violated",
    "Zfit.ParF.value_infinite_violated"
   ],
   "note": "Proved within the limits and up to a factor of two from them, with a bound of the error in general. Refuted: with limits 1 and 2, assign(2.0**60) gives 0, and infinite values give NaN, because the value is t + (clip(t) - t)."
  },
  {
   "property": "C298",
   "status": "partial",
   "theorems": [
    "Zfit.Dat.saved_events",
    "Zfit.Dat.saved_data_partial",
    "Zfit.Dat.saved_unlimited_violated",
    "Zfit.Dat.saved_union_violated",
    "Zfit.Dat.saved_guaranteed_violated",
    "Zfit.Dat.saved_label_violated"
   ],
   "note": "Proved for data with rectangular limits, all events inside and the default label. Refuted: data without limits or in a union of spaces cannot be saved, events outside the limits (guarantee_limits=True) are lost, and so is the label."
  },
  {
   "property": "C299",
   "status": "partial",
   "theorems": [
    "Zfit.Constr.saved_constraint",
    "Zfit.Constr.saved_constraint_partial",
    "Zfit.Constr.saved_matrix_violated",
    "Zfit.Constr.saved_sigma_violated"
   ],
   "note": "What can be saved is loaded unchanged, and it is characterised exactly. Refuted: constraints with a covariance matrix, or with sigma given as a number or an array, cannot be saved."
  },
  {
   "property": "C300",
   "status": "partial",
   "theorems": [
    "Zfit.Hs3.saved_loss_partial",
    "Zfit.Hs3.saved_loss_value",
    "Zfit.Hs3.saved_range_violated",
    "Zfit.Hs3.saved_options_violated"
   ],
   "note": "Proved for likelihoods without fit ranges whose parts can be saved (C181, C298, C299). Refuted: fit ranges and options are lost."
  },
  {
   "property": "C301",
   "status": "proved",
   "theorems": [
    "Zfit.Functor.sum_grouping",
    "Zfit.Functor.sum_grouping_extended",
    "Zfit.Functor.sum_grouping_yields"
   ],
   "note": "For formulas whose PDFs have one norm and can be evaluated at the point."
  },
  {
   "property": "C302",
   "status": "proved",
   "theorems": [
    "Zfit.Functor.product_grouping",
    "Zfit.Functor.product_grouping_integral"
   ],
   "note": "Values of norm=False and integrals over boxes with exact integrals of the daughters; the density is their ratio (C30)."
  },
  {
   "property": "C303",
   "status": "partial",
   "theorems": [
    "Zfit.Functor.conditional_density_partial",
    "Zfit.Functor.conditional_first_observable",
    "Zfit.Functor.conditional_limits_violated"
   ],
   "note": "Proved for conditions within the limits of the parameters. Refuted: a condition outside is replaced by the limit."
  },
  {
   "property": "C304",
   "status": "partial",
   "theorems": [
    "Zfit.Functor.conditional_integral_partial",
    "Zfit.Functor.conditional_integral_needs_var",
    "Zfit.Functor.conditional_sample_partial",
    "Zfit.Functor.conditional_sample_limits",
    "Zfit.Functor.conditional_sample_several_violated"
   ],
   "note": "Proved for conditions within the limits, var given and, for samples, one observable. Refuted: sampling a wrapped PDF of several observables always fails. That the parameters stay changed is C29."
  },
  {
   "property": "C305",
   "status": "proved",
   "theorems": [
    "Zfit.Units.density_unit",
    "Zfit.Units.fraction_unit",
    "Zfit.Units.gauss_unit",
    "Zfit.Units.uniform_unit",
    "Zfit.Units.truncatedGauss_unit",
    "Zfit.Units.cauchy_unit",
    "Zfit.Units.logNormal_unit",
    "Zfit.Units.studentT_unit",
    "Zfit.Units.qGauss_unit",
    "Zfit.Units.bifurGauss_unit",
    "Zfit.Units.gamma_unit",
    "Zfit.Units.johnsonSU_unit",
    "Zfit.Units.generalizedGauss_unit",
    "Zfit.Units.exponential_unit"
   ],
   "note": "For the wrapped distributions the densities are those documented by the library."
  },
  {
   "property": "C306",
   "status": "partial",
   "theorems": [
    "Zfit.Loss.unit_difference_partial",
    "Zfit.Loss.unit_zero_violated"
   ],
   "note": "Proved up to an explicit bound of the order of 1e-307 over the smallest density. Refuted where a density is zero."
  },
  {
   "property": "C307",
   "status": "partial",
   "theorems": [
    "Zfit.Dat.concat_index_names",
    "Zfit.Dat.concat_index_space_partial",
    "Zfit.Dat.concat_index_space_violated",
    "Zfit.Dat.concat_obs_space",
    "Zfit.Dat.concat_obs_names_limits_violated",
    "Zfit.Dat.concat_obs_arg_errors",
    "Zfit.Dat.concat_index_unknown_name_violated"
   ],
   "note": "Refuted: a space given along the index does not cut; names given along the observables lose the limits; an unknown name along the index is dropped."
  },
  {
   "property": "C308",
   "status": "partial",
   "theorems": [
    "Zfit.Acc.printed_table",
    "Zfit.Acc.printed_limit_partial",
    "Zfit.Acc.printed_limit_violated",
    "Zfit.Acc.printed_frozen_violated",
    "Zfit.Acc.printed_errors_partial",
    "Zfit.Acc.printed_upper_violated"
   ],
   "note": "The cells of values and uncertainties are proved right for all results. Refuted: \"at limit\" is that of the parameter when printing; a frozen result has no cell for it; a negative upper error has two signs."
  },
  {
   "property": "C309",
   "status": "proved",
   "theorems": [
    "Zfit.Loss.nll_from_one_array",
    "Zfit.Loss.nll_from_arrays",
    "Zfit.Loss.extended_nll_from_arrays"
   ],
   "note": "Data and loss model composed: the data object is cut, re-ordered and read as in the code. With a fit range the number of events of the Poisson term is that of the whole data, see C135."
  },
  {
   "property": "C310",
   "status": "partial",
   "theorems": [
    "Zfit.Sp.space_le_iff",
    "Zfit.Sp.space_le_without_limits",
    "Zfit.Sp.space_le_inside_partial",
    "Zfit.Sp.space_le_self",
    "Zfit.Sp.space_le_trans",
    "Zfit.Sp.space_le_antisymm",
    "Zfit.Sp.space_le_violated",
    "Zfit.Sp.space_le_union_violated"
   ],
   "note": "Proved: what is compared, for all spaces and unions; an order; containment if the lower limits agree. Refuted: both limits are compared with <=, so disjoint intervals compare as contained and an interval inside another does not; a space and a union cannot be compared."
  },
  {
   "property": "C311",
   "status": "proved",
   "theorems": [
    "Zfit.Unc.edm_reparametrised",
    "Zfit.Unc.converged_reparametrised",
    "Zfit.Unc.covariance_reparametrised",
    "Zfit.Unc.weighted_reparametrised",
    "Zfit.Unc.hesse_other_unit"
   ],
   "note": "Exact derivatives. Derivatives are unique and transform by the chain rule (Derivs.unique, Derivs.change)."
  },
  {
   "property": "C312",
   "status": "proved",
   "theorems": [
    "Zfit.Convert.binned_data_unit",
    "Zfit.Convert.binned_pdf_unit",
    "Zfit.Convert.binned_loss_unit",
    "Zfit.Convert.binned_fit_unit"
   ],
   "note": "Rational numbers. The function that takes one unit to the other is any strictly increasing one for each observable."
  },
  {
   "property": "C313",
   "status": "partial",
   "theorems": [
    "Zfit.Run.import_accepted_iff",
    "Zfit.Run.import_mode_partial",
    "Zfit.Run.tf_warnings",
    "Zfit.Run.deprecation_warning_partial",
    "Zfit.Run.mode_graph_ignored_violated",
    "Zfit.Run.graph_mode_not_decisive_violated",
    "Zfit.Run.old_names_disagree_violated",
    "Zfit.Run.deprecation_warning_violated"
   ],
   "note": "Proved: when the import fails, when it is eager, the warnings of TensorFlow. Refuted: ZFIT_MODE_GRAPH has no effect, a deprecated variable at zero overrides ZFIT_GRAPH_MODE=1, the warnings name the wrong variable."
  },
  {
   "property": "C314",
   "status": "proved",
   "theorems": [
    "Zfit.Unc.search_reparametrised",
    "Zfit.Unc.search_reversed",
    "Zfit.Unc.errors_reparametrised",
    "Zfit.Unc.errors_other_unit",
    "Zfit.Unc.start_other_units",
    "Zfit.Unc.stationary_reparametrised"
   ],
   "note": "For corresponding points of the root finder, which is external."
  },
  {
   "property": "C315",
   "status": "partial",
   "theorems": [
    "Zfit.Cont.one_thing",
    "Zfit.Cont.several_things",
    "Zfit.Cont.list_of_one",
    "Zfit.Cont.none_kept",
    "Zfit.Cont.convert_again",
    "Zfit.Cont.same_object",
    "Zfit.Cont.other_arguments",
    "Zfit.Cont.iteration_error_partial",
    "Zfit.Cont.iteration_error_violated"
   ],
   "note": "Proved except for errors: a TypeError or AttributeError raised while iterating (as in a generator) is lost, the iterable then counts as one thing."
  },
  {
   "property": "C316",
   "status": "proved",
   "theorems": [
    "Zfit.Functor.sum_unit_accepted",
    "Zfit.Functor.sum_unit",
    "Zfit.Functor.sum_unit_extended"
   ],
   "note": "For formulas whose PDFs have one norm and can be evaluated at the point."
  },
  {
   "property": "C317",
   "status": "proved",
   "theorems": [
    "Zfit.Functor.product_unit",
    "Zfit.Functor.contains_inUnit"
   ],
   "note": "Rational values of the events, densities in any commutative division monoid."
  },
  {
   "property": "C318",
   "status": "partial",
   "theorems": [
    "Zfit.Functor.scalars_compute",
    "Zfit.Functor.expression_computes",
    "Zfit.Functor.kind_irrelevant",
    "Zfit.Functor.with_models",
    "Zfit.Functor.scaled_follows_parameters_partial",
    "Zfit.Functor.unparenthesised_frozen",
    "Zfit.Functor.product_follows_parameters_violated"
   ],
   "note": "All but the last part is proved in full.  The last part fails: a * b * func multiplies a and b first, to a tensor, which becomes a constant; the function keeps the values a and b had then and has neither among its parameters (unparenthesised_frozen, product_follows_parameters_violated).  With a * (b * func) it holds (scaled_follows_parameters_partial)."
  }
 ]
}