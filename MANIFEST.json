{
 "claims": [
  {
   "property": "C01",
   "status": "proved",
   "theorems": [
    "Arctic.C01_column_sum"
   ],
   "note": ""
  },
  {
   "property": "C02",
   "status": "proved",
   "theorems": [
    "Arctic.C02_fails_iff",
    "Arctic.C02_counterexample",
    "Arctic.C02_index_error",
    "Arctic.C02_total_without_first"
   ],
   "note": "As titled the claim is false; C02_fails_iff characterises exactly when the call raises, C02_counterexample is a concrete instance."
  },
  {
   "property": "C03",
   "status": "proved",
   "theorems": [
    "Arctic.C03_bounds",
    "Arctic.C03_int_whole",
    "Arctic.C03_monotone",
    "Arctic.C03_monitor_iff_pos"
   ],
   "note": ""
  },
  {
   "property": "C04",
   "status": "proved",
   "theorems": [
    "Arctic.C04_alias",
    "Arctic.C04_entries"
   ],
   "note": ""
  },
  {
   "property": "C05",
   "status": "proved",
   "theorems": [
    "Arctic.C05_partition",
    "Arctic.C05_monitor_same"
   ],
   "note": ""
  },
  {
   "property": "C06",
   "status": "proved",
   "theorems": [
    "Arctic.C06_add_cti",
    "Arctic.C06_covering_time_window",
    "Arctic.C06_default_time_window"
   ],
   "note": ""
  },
  {
   "property": "C07",
   "status": "proved",
   "theorems": [
    "Arctic.C07_offset_is_embedding",
    "Arctic.C07_counterexample"
   ],
   "note": "Holds with the stated side condition for first-transfer mode; C07_counterexample shows that condition is needed."
  },
  {
   "property": "C08",
   "status": "proved",
   "theorems": [
    "Arctic.C08_window_selects",
    "Arctic.C08_window_fails_iff"
   ],
   "note": ""
  },
  {
   "property": "C09",
   "status": "proved",
   "theorems": [
    "Arctic.C09_column_sum",
    "Arctic.C09_default_time_window",
    "Arctic.C09_counterexample",
    "Arctic.C09_int_dtype_raises"
   ],
   "note": "C09_default_time_window and C09_counterexample show the truncation through add_cti's default."
  },
  {
   "property": "C10",
   "status": "proved",
   "theorems": [
    "Arctic.C10_unchanged",
    "Arctic.C10_frozen",
    "Arctic.C10_counterexample"
   ],
   "note": "Claim is false for the default n_pixel_transfers=None: C10_frozen (general), C10_counterexample; C10_unchanged is the part that holds."
  },
  {
   "property": "C11",
   "status": "proved",
   "theorems": [
    "Arctic.C11_total",
    "Arctic.C11_float",
    "Arctic.C11_exists",
    "Arctic.C11_int_passes",
    "Arctic.C11_int_counterexample",
    "Arctic.C11_int_at_least"
   ],
   "note": "Float dtype proved; int dtype false (C11_int_counterexample), never fewer pumps (C11_int_at_least)."
  },
  {
   "property": "C12",
   "status": "proved",
   "theorems": [
    "Arctic.C12_single_pixel",
    "Arctic.C12_multi_pixel_raises"
   ],
   "note": "False for two or more pixels (C12_multi_pixel_raises, for all inputs); holds for one."
  },
  {
   "property": "C13",
   "status": "proved",
   "theorems": [
    "Arctic.C13_one_high",
    "Arctic.C13_fractions",
    "Arctic.C13_high_release",
    "Arctic.C13_high_captures_own_pixel",
    "Arctic.C13_pumping_high_capture",
    "Arctic.C13_releases_to_nearest"
   ],
   "note": ""
  },
  {
   "property": "C14",
   "status": "proved",
   "theorems": [
    "Arctic.C14_touched",
    "Arctic.C14_touched_force",
    "Arctic.C14_accessed"
   ],
   "note": ""
  },
  {
   "property": "C15",
   "status": "proved",
   "theorems": [
    "Arctic.C15_in_range",
    "Arctic.C15_forced",
    "Arctic.C15_unforced_false",
    "Arctic.C15_extra_phase_false"
   ],
   "note": "Forced release and phases of the readout: proved for every trap system whose reactions do not themselves overrun. Otherwise: C15_unforced_false (every configuration with two or more phases whose last phase holds traps fails), C15_extra_phase_false (every readout class)."
  },
  {
   "property": "C16",
   "status": "proved",
   "theorems": [
    "Arctic.C16_step_instant",
    "Arctic.C16_step_slow",
    "Arctic.C16_history_instant",
    "Arctic.C16_history_slow",
    "Arctic.C16_slow_false",
    "Arctic.C16_history_trackTime"
   ],
   "note": "Any state with an unused row, and every history within budget, for instant capture and elapsed times. Slow capture: histories up to two thirds of the budget; C16_slow_false is a failure inside the budget."
  },
  {
   "property": "C17",
   "status": "proved",
   "theorems": [
    "Arctic.C17_instant",
    "Arctic.C17_trackTime",
    "Arctic.C17_slow_false",
    "Arctic.C17_slow_bound",
    "Arctic.C17_instant_notch_false"
   ],
   "note": "C17_instant and C17_trackTime prove it; C17_slow_false and C17_instant_notch_false are the counterexamples; C17_slow_bound is what holds for slow capture."
  },
  {
   "property": "C18",
   "status": "proved",
   "theorems": [
    "Arctic.C18_instant",
    "Arctic.C18_trackTime",
    "Arctic.C18_slow_step",
    "Arctic.C18_slow_false",
    "Arctic.C18_slow_heights"
   ],
   "note": "Instant capture and elapsed times for every history. Slow capture: false (C18_slow_false); C18_slow_step and C18_slow_heights say what holds."
  },
  {
   "property": "C19",
   "status": "proved",
   "theorems": [
    "Arctic.C19_instant",
    "Arctic.C19_trackTime",
    "Arctic.C19_slow_false",
    "Arctic.C19_slow_bound",
    "Arctic.C19_not_emptied_false"
   ],
   "note": "Instant capture and elapsed times for every history. Slow capture false (C19_slow_false), C19_slow_bound is the safe part; C19_not_emptied_false is the not-emptied case."
  },
  {
   "property": "C20",
   "status": "proved",
   "theorems": [
    "Arctic.C20_profile",
    "Arctic.C20_captured"
   ],
   "note": ""
  },
  {
   "property": "C21",
   "status": "proved",
   "theorems": [
    "Arctic.C21_lindegren"
   ],
   "note": "From every well-formed state when the released electrons do not lift the cloud above the highest level (otherwise see C18_slow_false)."
  },
  {
   "property": "C22",
   "status": "proved",
   "theorems": [
    "Arctic.C22_same_nets",
    "Arctic.C22_enough",
    "Arctic.C22_clock",
    "Arctic.C22_add_cti"
   ],
   "note": ""
  },
  {
   "property": "C23",
   "status": "proved",
   "theorems": [
    "Arctic.C23_typeError_iff",
    "Arctic.C23_false"
   ],
   "note": "False as titled: C23_typeError_iff shows a shortage always raises TypeError, and nothing else does; C23_false is a concrete instance."
  },
  {
   "property": "C24",
   "status": "proved",
   "theorems": [
    "Arctic.C24_slow",
    "Arctic.C24_instant",
    "Arctic.C24_trackTime",
    "Arctic.C24_clocking",
    "Arctic.C24_add_cti"
   ],
   "note": ""
  },
  {
   "property": "C25",
   "status": "proved",
   "theorems": [
    "Arctic.C25_probabilities",
    "Arctic.C25_compose",
    "Arctic.C25_rate_equation",
    "Arctic.C25_instant",
    "Arctic.C25_zero_dwell",
    "Arctic.C25_zero_dwell_slow",
    "Arctic.C25_fillProbs",
    "Arctic.C25_slow_example"
   ],
   "note": "Over the reals. C25_zero_dwell is the NaN case; C25_rate_equation ties the formulas to the trap rate equation independently of the code."
  },
  {
   "property": "C26",
   "status": "proved",
   "theorems": [
    "Arctic.C26_inverse",
    "Arctic.C26_decreasing",
    "Arctic.C26_released"
   ],
   "note": ""
  },
  {
   "property": "C27",
   "status": "proved",
   "theorems": [
    "Arctic.C27_columns",
    "Arctic.C27_input",
    "Arctic.C27_join",
    "Arctic.C27_order"
   ],
   "note": ""
  },
  {
   "property": "C28",
   "status": "proved",
   "theorems": [
    "Arctic.C28_nonneg"
   ],
   "note": ""
  },
  {
   "property": "C29",
   "status": "proved",
   "theorems": [
    "Arctic.C29_no_traps",
    "Arctic.C29_no_traps_time",
    "Arctic.C29_zero_density",
    "Arctic.C29_empty_image"
   ],
   "note": ""
  },
  {
   "property": "C30",
   "status": "proved",
   "theorems": [
    "Arctic.C30_untouched",
    "Arctic.C30_add_cti",
    "Arctic.C30_column_window"
   ],
   "note": ""
  },
  {
   "property": "C31",
   "status": "proved",
   "theorems": [
    "Arctic.C31_account",
    "Arctic.C31_no_creation",
    "Arctic.C31_add_cti",
    "Arctic.C31_saved_states_false"
   ],
   "note": "Account proved for every column through all passes; the no-creation consequence for standard readout with empty traps for first transfers and charge injection; counterexample for saved trap states."
  },
  {
   "property": "C32",
   "status": "proved",
   "theorems": [
    "Arctic.C32_groups_false",
    "Arctic.C32_negative_false",
    "Arctic.C32_offset_false",
    "Arctic.C32_one_group"
   ],
   "note": "False in general: three counterexamples; true part C32_one_group."
  },
  {
   "property": "C33",
   "status": "proved",
   "theorems": [
    "Arctic.C33_split",
    "Arctic.C33_full_window",
    "Arctic.C33_default",
    "Arctic.C33_saved_states_false",
    "Arctic.C33_express_false"
   ],
   "note": "C33_split and C33_default for the default readout flags; C33_saved_states_false and C33_express_false are counterexamples outside them."
  },
  {
   "property": "C34",
   "status": "proved",
   "theorems": [
    "Arctic.C34_serial",
    "Arctic.C34_injection_false"
   ],
   "note": "Standard readout and trap pumping proved; charge injection is a counterexample (C34_injection_false)."
  },
  {
   "property": "C35",
   "status": "proved",
   "theorems": [
    "Arctic.C35_clocking",
    "Arctic.C35_causality"
   ],
   "note": "Standard readout with forced release through add_cti, and charge injection; any express value; both runs assumed to return."
  },
  {
   "property": "C36",
   "status": "proved",
   "theorems": [
    "Arctic.C36_zero",
    "Arctic.C36_iteration",
    "Arctic.C36_shape",
    "Arctic.C36_fixed_point",
    "Arctic.C36_no_traps",
    "Arctic.C36_untouched",
    "Arctic.C36_convergence"
   ],
   "note": "C36_convergence assumes the local contraction of the change made by add_cti; exPixel and the example after it discharge that assumption for a concrete configuration."
  },
  {
   "property": "C37",
   "status": "proved",
   "theorems": [
    "Arctic.C37_pixel",
    "Arctic.C37_default"
   ],
   "note": ""
  },
  {
   "property": "C38",
   "status": "proved",
   "theorems": [
    "Arctic.C38_account",
    "Arctic.C38_restore_save",
    "Arctic.C38_restore_unsaved",
    "Arctic.C38_column_end"
   ],
   "note": ""
  },
  {
   "property": "C39",
   "status": "proved",
   "theorems": [
    "Arctic.C39_saves_before_next_start",
    "Arctic.C39_next_start",
    "Arctic.C39_single_row_raises",
    "Arctic.C39_first_transfers_never_save"
   ],
   "note": ""
  },
  {
   "property": "C40",
   "status": "proved",
   "theorems": [
    "Arctic.C40_values",
    "Arctic.C40_monotone",
    "Arctic.C40_view",
    "Arctic.C40_negative_notch_false"
   ],
   "note": "C40_negative_notch_false shows why the notch must not be negative."
  },
  {
   "property": "C41",
   "status": "proved",
   "theorems": [
    "Arctic.C41_accepts",
    "Arctic.C41_phase",
    "Arctic.C41_default_bloom",
    "Arctic.C41_surface"
   ],
   "note": "C41_default_bloom and C41_surface are the two defects in the statement."
  },
  {
   "property": "C42",
   "status": "proved",
   "theorems": [
    "Arctic.C42_dates",
    "Arctic.C42_species",
    "Arctic.C42_growth",
    "Arctic.C42_cooling"
   ],
   "note": "C42_cooling states the direction of the release-time change at the cooling date."
  },
  {
   "property": "C43",
   "status": "proved",
   "theorems": [
    "Arctic.C43_no_serial_clocker",
    "Arctic.C43_serial_clocker",
    "Arctic.C43_records",
    "Arctic.C43_never_recorded",
    "Arctic.C43_false"
   ],
   "note": "False as titled: C43_no_serial_clocker, C43_serial_clocker, C43_records and C43_never_recorded characterise exactly what is recorded or raised for all arguments; C43_false is the counterexample."
  },
  {
   "property": "C44",
   "status": "proved",
   "theorems": [
    "Arctic.C44_sampled",
    "Arctic.C44_mean",
    "Arctic.C44_capture_dropped",
    "Arctic.C44_constructible",
    "Arctic.C44_capture_false"
   ],
   "note": "C44_capture_false: the capture timescale of a slow trap is lost."
  },
  {
   "property": "C45",
   "status": "proved",
   "theorems": [
    "Arctic.C45_fill_fraction",
    "Arctic.C45_released",
    "Arctic.C45_time_elapsed",
    "Arctic.C45_logNormal",
    "Arctic.C45_logNormal_median",
    "Arctic.C45_logNormalTrap"
   ],
   "note": "Integrals as Lebesgue integrals over the reals; scipy.integrate.quad and root finding are idealised (DESIGN.md)."
  },
  {
   "property": "C46",
   "status": "proved",
   "theorems": [
    "Arctic.C46_additive",
    "Arctic.C46_phases",
    "Arctic.C46_positive"
   ],
   "note": ""
  },
  {
   "property": "C47",
   "status": "proved",
   "theorems": [
    "Arctic.C47_input_forms",
    "Arctic.C47_densities",
    "Arctic.C47_total",
    "Arctic.C47_refused"
   ],
   "note": ""
  },
  {
   "property": "C48",
   "status": "proved",
   "theorems": [
    "Arctic.C48_skip"
   ],
   "note": "Non-negative images; the statement compares processing all phases with processing only those with traps."
  },
  {
   "property": "C49",
   "status": "proved",
   "theorems": [
    "Arctic.C49_roll",
    "Arctic.C49_cumsum",
    "Arctic.C49_index"
   ],
   "note": ""
  },
  {
   "property": "C50",
   "status": "proved",
   "theorems": [
    "Arctic.C50_split",
    "Arctic.C50_collapse_electrons",
    "Arctic.C50_collapse_occ"
   ],
   "note": ""
  },
  {
   "property": "C51",
   "status": "proved",
   "theorems": [
    "Arctic.C51_clock",
    "Arctic.C51_add_cti",
    "Arctic.C51_slow_false",
    "Arctic.C51_injection_false"
   ],
   "note": "C51_clock and C51_add_cti (instant capture and elapsed times); C51_slow_false is an add_cti call with finite capture time that overruns the watermark array; C51_injection_false shows that charge injection with a window not starting at row 0 never completes."
  },
  {
   "property": "C52",
   "status": "proved",
   "theorems": [
    "Arctic.C52_full_array_false"
   ],
   "note": "Claim is false: C52_full_array_false."
  },
  {
   "property": "C53",
   "status": "proved",
   "theorems": [
    "Arctic.C53_clock",
    "Arctic.C53_add_cti"
   ],
   "note": "C53_add_cti: express 0 in both directions; C53_clock: one direction, any express value, window and offset. Fill function positive for positive clouds (no notch), fraction kept below 1."
  },
  {
   "property": "C54",
   "status": "proved",
   "theorems": [
    "Arctic.C54_refinement"
   ],
   "note": "Readouts with traps emptied between columns and within the watermark budget (no saves, pumping, or full readout)."
  },
  {
   "property": "C55",
   "status": "proved",
   "theorems": [
    "Arctic.C55_add_cti",
    "Arctic.C55_parallel",
    "Arctic.C55_default",
    "Arctic.C55_hst",
    "Arctic.C55_missing",
    "Arctic.C55_serial"
   ],
   "note": "C55_add_cti both directions, C55_parallel, C55_hst for the HST ACS preset, C55_missing for absent objects."
  },
  {
   "property": "C57",
   "status": "proved",
   "theorems": [
    "Arctic.C57_background",
    "Arctic.C57_hst",
    "Arctic.C57_clock",
    "Arctic.C57_add_cti",
    "Arctic.C57_false"
   ],
   "note": "C57_add_cti (both directions, objects), C57_clock (one direction, any express value and filling law), C57_background and C57_hst (power at most one over a background; both directions in C91_background_both), C57_false (too many traps)."
  },
  {
   "property": "C58",
   "status": "proved",
   "theorems": [
    "Arctic.C58_remove_cti",
    "Arctic.C58_background",
    "Arctic.C58_limit",
    "Arctic.C58_hst"
   ],
   "note": "C58_remove_cti (both directions, power >= 1), C58_limit (error below any bound), C58_background (parallel, power <= 1, over a background), C58_hst (HST preset). Over the reals, express = 0, notch 0, whole image windows."
  },
  {
   "property": "C56",
   "status": "proved",
   "theorems": [
    "Arctic.C56_passes",
    "Arctic.C56_calls",
    "Arctic.C56_counting"
   ],
   "note": "C56_passes (ROE matrix), C56_calls (calls of the clocking loops, any trap system), C56_counting (the counter does not change the computation)."
  },
  {
   "property": "C59",
   "status": "proved",
   "theorems": [
    "Arctic.C59_constructors",
    "Arctic.C59_assign",
    "Arctic.C59_dtype_refused",
    "Arctic.C59_force_ignored",
    "Arctic.C59_longer_false",
    "Arctic.C59_shorter_false",
    "Arctic.C59_odd_kept"
   ],
   "note": "C59_assign (the object equals the constructed one), C59_constructors, C59_dtype_refused; the false cases: C59_force_ignored, C59_longer_false, C59_shorter_false, C59_odd_kept."
  },
  {
   "property": "C60",
   "status": "proved",
   "theorems": [
    "Arctic.C60_separate",
    "Arctic.C60_shared",
    "Arctic.C60_injection_false",
    "Arctic.C60_unchanged",
    "Arctic.C60_history"
   ],
   "note": "C60_separate, C60_shared, C60_unchanged, C60_history; false for charge injection without n_pixel_transfers: C60_injection_false."
  },
  {
   "property": "C61",
   "status": "proved",
   "theorems": [
    "Arctic.C61_refinement",
    "Arctic.C61_objects",
    "Arctic.C61_add_cti"
   ],
   "note": ""
  },
  {
   "property": "C62",
   "status": "proved",
   "theorems": [
    "Arctic.C62_refinement",
    "Arctic.C62_objects",
    "Arctic.C62_add_cti"
   ],
   "note": ""
  },
  {
   "property": "C63",
   "status": "proved",
   "theorems": [
    "Arctic.C63_account",
    "Arctic.C63_no_creation",
    "Arctic.C63_objects",
    "Arctic.C63_add_cti"
   ],
   "note": ""
  },
  {
   "property": "C64",
   "status": "proved",
   "theorems": [
    "Arctic.C64_clock",
    "Arctic.C64_add_cti",
    "Arctic.C64_remove_cti",
    "Arctic.C64_remove_objects",
    "Arctic.C64_objects"
   ],
   "note": ""
  },
  {
   "property": "C65",
   "status": "proved",
   "theorems": [
    "Arctic.C65_clock",
    "Arctic.C65_remove_objects",
    "Arctic.C65_objects",
    "Arctic.C65_log_normal",
    "Arctic.C65_lifetimes"
   ],
   "note": ""
  },
  {
   "property": "C66",
   "status": "proved",
   "theorems": [
    "Arctic.C66_clock",
    "Arctic.C66_agree",
    "Arctic.C66_add_cti",
    "Arctic.C66_remove_cti",
    "Arctic.C66_express_false"
   ],
   "note": "C66_add_cti and C66_remove_cti (windows: whole image), C66_clock (any row window followed by farther rows, any columns). Instant capture, emptied traps, forced release, express = 0. C66_express_false: counterexample for express = 2."
  },
  {
   "property": "C67",
   "status": "proved",
   "theorems": [
    "Arctic.C67_exact",
    "Arctic.C67_configuration",
    "Arctic.C67_safe",
    "Arctic.C67_double",
    "Arctic.C67_well_filling",
    "Arctic.C67_nonneg",
    "Arctic.C67_nan_raises",
    "Arctic.C67_any_configuration",
    "Arctic.C67_call",
    "Arctic.C67_exact_call"
   ],
   "note": "C67_safe: any lawful arithmetic; C67_double: IEEE binary64 (B64.lawful) with any np.sum; C67_well_filling: the code's well filling is admissible; C67_nonneg; C67_exact and C67_configuration tie this copy of the code to the other modules; C67_nan_raises: the IndexError occurs. Express matrix entries enter as arbitrary doubles. Slow-capture traps and stored trap states are not included (except in C67_nonneg). C67_any_configuration, C67_call: with the express matrix computed in the same arithmetic; C67_exact_call."
  },
  {
   "property": "C68",
   "status": "proved",
   "theorems": [
    "Arctic.C68_columns",
    "Arctic.C68_untouched",
    "Arctic.C68_forward",
    "Arctic.C68_causality",
    "Arctic.C68_several_phases_false",
    "Arctic.C68_products_differ"
   ],
   "note": "C68_columns, C68_untouched, C68_causality with C68_forward: any arithmetic without laws, any trap class. C68_several_phases_false: counterexample in double precision; C68_products_differ: the reason."
  },
  {
   "property": "C69",
   "status": "proved",
   "theorems": [
    "Arctic.C69_column_sum",
    "Arctic.C69_divides",
    "Arctic.C69_express_zero",
    "Arctic.C69_int",
    "Arctic.C69_positive_iff",
    "Arctic.C69_close",
    "Arctic.C69_product_below",
    "Arctic.C69_rows_move"
   ],
   "note": "C69_column_sum; C69_divides with C69_express_zero; C69_int; C69_close: ProductsNotBelow is enough; C69_positive_iff: before the insertion of first transfers it is necessary as well; C69_product_below, C69_rows_move: counterexample."
  },
  {
   "property": "C70",
   "status": "proved",
   "theorems": [
    "Arctic.C70_exact",
    "Arctic.C70_add_safe",
    "Arctic.C70_remove_safe",
    "Arctic.C70_nonneg",
    "Arctic.C70_add_untouched",
    "Arctic.C70_remove_outside",
    "Arctic.C70_remove_untouched",
    "Arctic.C70_columns",
    "Arctic.C70_infinite_pixel"
   ],
   "note": "C70_add_safe, C70_remove_safe; C70_nonneg and C70_add_untouched, C70_remove_outside, C70_columns: any arithmetic; C70_remove_untouched: double precision; C70_infinite_pixel: the exception occurs; C70_exact ties the functions to the other modules."
  },
  {
   "property": "C71",
   "status": "proved",
   "theorems": [
    "Arctic.C71_clocking",
    "Arctic.C71_add_cti",
    "Arctic.C71_remove_cti",
    "Arctic.C71_grouping_matters",
    "Arctic.C71_objects",
    "Arctic.C71_add_cti_objects",
    "Arctic.C71_remove_cti_objects",
    "Arctic.C71_first_decides",
    "Arctic.C71_mixed_order"
   ],
   "note": "C71_clocking, C71_add_cti, C71_remove_cti: any managers; C71_objects, C71_add_cti_objects, C71_remove_cti_objects: trap objects; C71_grouping_matters, C71_first_decides, C71_mixed_order: the limits."
  },
  {
   "property": "C72",
   "status": "proved",
   "theorems": [
    "Arctic.C72_add_own",
    "Arctic.C72_remove_own",
    "Arctic.C72_add",
    "Arctic.C72_remove",
    "Arctic.C72_remove_float32",
    "Arctic.C72_remove_int",
    "Arctic.C72_remove_no_traps",
    "Arctic.C72_remove_bool",
    "Arctic.C72_unsupported",
    "Arctic.C72_remove_zero"
   ],
   "note": "C72_add_own, C72_remove_own: memory; C72_add, C72_remove, C72_remove_float32: values and types; C72_remove_int, C72_remove_bool, C72_unsupported: what raises; C72_remove_no_traps, C72_remove_zero: copies."
  },
  {
   "property": "C73",
   "status": "proved",
   "theorems": [
    "Arctic.C73_clocking",
    "Arctic.C73_saved",
    "Arctic.C73_setter",
    "Arctic.C73_setter_length",
    "Arctic.C73_setter_twice",
    "Arctic.C73_traps"
   ],
   "note": "C73_traps: the caller's traps and the densities of the managers; C73_saved: saved states; C73_clocking: clocking with objects is clocking with values; C73_setter: assignment of densities, C73_setter_length and C73_setter_twice: its limits."
  },
  {
   "property": "C74",
   "status": "proved",
   "theorems": [
    "Arctic.C74_clock",
    "Arctic.C74_shape",
    "Arctic.C74_complete",
    "Arctic.C74_parallel",
    "Arctic.C74_serial",
    "Arctic.C74_exponential",
    "Arctic.C74_no_notch_false"
   ],
   "note": "C74_clock: one direction; C74_parallel and C74_serial: add_cti with Python objects; C74_shape, C74_complete, C74_exponential: consequences; C74_no_notch_false: the limit. The conditions (bright pixel not used up, others within the notch to the end) follow from a capacity bound, BrightPixel.of_capacity."
  },
  {
   "property": "C75",
   "status": "proved",
   "theorems": [
    "Arctic.C75_natural",
    "Arctic.C75_all_negative",
    "Arctic.C75_negative_pixel",
    "Arctic.C75_from_end",
    "Arctic.C75_out_of_bounds",
    "Arctic.C75_never_returns",
    "Arctic.C75_pumping"
   ],
   "note": "False as stated. C75_natural: the model with integers is the main model for natural numbers; C75_all_negative, C75_negative_pixel: what raises; C75_out_of_bounds, C75_pumping: the counterexamples, for traps whose computation does not raise; C75_never_returns: with the managers of arcticpy no such call returns. C75_from_end: the matrices do count from the end."
  },
  {
   "property": "C76",
   "status": "proved",
   "theorems": [
    "Arctic.C76_total",
    "Arctic.C76_transfers",
    "Arctic.C76_negative_start_false",
    "Arctic.C76_consecutive",
    "Arctic.C76_shared_end_false",
    "Arctic.C76_fractions_false",
    "Arctic.C76_serial_first_false",
    "Arctic.C76_serial_second_false"
   ],
   "note": "C76_transfers, C76_consecutive hold; C76_shared_end_false, C76_negative_start_false, C76_fractions_false, C76_serial_first_false, C76_serial_second_false give the exact deviation. C76_total: any pair of numbers."
  },
  {
   "property": "C77",
   "status": "proved",
   "theorems": [
    "Arctic.C77_agree",
    "Arctic.C77_at_most",
    "Arctic.C77_unchanged",
    "Arctic.C77_history",
    "Arctic.C77_once",
    "Arctic.C77_injection_false",
    "Arctic.C77_poison_false"
   ],
   "note": "False as stated for charge injection without n_pixel_transfers (C77_injection_false, C77_poison_false). C77_agree ties the model to addCtiHeap; C77_at_most says what can change in general; C77_unchanged, C77_history hold for all other objects; C77_once for a single object."
  },
  {
   "property": "C78",
   "status": "proved",
   "theorems": [
    "Arctic.C78_neighbours",
    "Arctic.C78_first_half",
    "Arctic.C78_second_half",
    "Arctic.C78_gain",
    "Arctic.C78_source",
    "Arctic.C78_first_phase_false",
    "Arctic.C78_express_false",
    "Arctic.C78_groups_false"
   ],
   "note": "C78_neighbours, C78_first_half, C78_second_half: pixels touched, for all traps. C78_gain, C78_source: direction, for traps outside the first phase. The limits are needed: C78_first_phase_false, C78_express_false, C78_groups_false."
  },
  {
   "property": "C79",
   "status": "proved",
   "theorems": [
    "Arctic.C79_instant",
    "Arctic.C79_track_time",
    "Arctic.C79_track_time_order_false",
    "Arctic.C79_split",
    "Arctic.C79_slow_false",
    "Arctic.C79_slow_array_false"
   ],
   "note": "C79_instant, C79_track_time: the two classes with instant capture (the second raises when there are not enough electrons; a call that raises ends the history). C79_split: what a split guarantees, for both classes. C79_slow_false, C79_slow_array_false: slow capture, an input with integer pixels where double precision is off by more than the pixel. np.sum is taken from left to right, which numpy does for fewer than eight numbers. C79_track_time_order_false: numpy's order for eight and more numbers gives a negative volume with elapsed times."
  },
  {
   "property": "C80",
   "status": "proved",
   "theorems": [
    "Arctic.C80_fractions",
    "Arctic.C80_slower",
    "Arctic.C80_slower_traps",
    "Arctic.C80_fast_instant",
    "Arctic.C80_fast_instant_false",
    "Arctic.C80_image_false",
    "Arctic.C80_slower_image_false"
   ],
   "note": "C80_fractions, C80_slower, C80_slower_traps, C80_fast_instant: proved for single transfers from any well-formed state. C80_fast_instant_false, C80_image_false, C80_slower_image_false: what does not hold for images."
  },
  {
   "property": "C81",
   "status": "proved",
   "theorems": [
    "Arctic.C81_add_cti",
    "Arctic.C81_remove_cti",
    "Arctic.C81_background",
    "Arctic.C81_hst",
    "Arctic.C81_pixel"
   ],
   "note": "C81_add_cti, C81_remove_cti: both directions, power at least 1. C81_background, C81_hst: parallel clocking, power at most 1 and a background. C81_pixel: the exact result for one pixel. Instant capture, one step per pixel, every transfer represented."
  },
  {
   "property": "C82",
   "status": "proved",
   "theorems": [
    "Arctic.C82_add_cti",
    "Arctic.C82_background",
    "Arctic.C82_remove_cti",
    "Arctic.C82_hst"
   ],
   "note": "C82_add_cti, C82_remove_cti: both directions, power at least 1. C82_background, C82_hst: parallel clocking, power at most 1 and a background. express_column: one column, any Lipschitz filling law. The constants (1/2, 10, 2, 3) are upper bounds; no lower bound is proved."
  },
  {
   "property": "C83",
   "status": "proved",
   "theorems": [
    "Arctic.C83_add_cti",
    "Arctic.C83_serial",
    "Arctic.C83_compose",
    "Arctic.C83_standard",
    "Arctic.C83_rising",
    "Arctic.C83_first",
    "Arctic.C83_first_linear",
    "Arctic.C83_express",
    "Arctic.C83_remove_cti"
   ],
   "note": "C83_add_cti, C83_serial (with serial clocking after it), C83_compose, C83_standard: any power. C83_first, C83_first_linear, C83_rising, C83_express, C83_remove_cti: power at least 1. The number of transfers is given (n_pixel_transfers = None: C10; integer dtype of the pixels: C09)."
  },
  {
   "property": "C84",
   "status": "proved",
   "theorems": [
    "Arctic.C84_hst",
    "Arctic.C84_clock",
    "Arctic.C84_injection",
    "Arctic.C84_add_cti",
    "Arctic.C84_remove_cti",
    "Arctic.C84_negative_false"
   ],
   "note": "C84_clock, C84_injection (one direction); C84_add_cti, C84_remove_cti (both directions; parallel_express etc. any value for which the code does not raise, no time window). C84_negative_false: an image with a negative pixel. The class with capture times is not covered. C84_hst: the HST preset, every date."
  },
  {
   "property": "C85",
   "status": "proved",
   "theorems": [
    "Arctic.C85_clock",
    "Arctic.C85_add_cti",
    "Arctic.C85_corner",
    "Arctic.C85_centroid",
    "Arctic.C85_remove_cti",
    "Arctic.C85_few_traps",
    "Arctic.C85_hst",
    "Arctic.C85_express_false"
   ],
   "note": "C85_clock: one column of one direction, standard readout or charge injection. C85_add_cti, C85_corner, C85_centroid, C85_remove_cti: one group of instant-capture traps in each direction, traps with stored elapsed times excluded. C85_few_traps: with Python objects. C85_express_false: express = 1. C85_hst: the HST preset, every date."
  },
  {
   "property": "C86",
   "status": "proved",
   "theorems": [
    "Arctic.C86_clock",
    "Arctic.C86_instant",
    "Arctic.C86_slow",
    "Arctic.C86_add_cti",
    "Arctic.C86_remove_cti",
    "Arctic.C86_first",
    "Arctic.C86_many_false"
   ],
   "note": "C86_clock: groups of reference traps, all readout classes of C61. C86_instant, C86_slow: one direction with Python objects, standard readout. C86_add_cti, C86_remove_cti: both directions, instant capture or lifetimes. C86_first: the class of the first trap. C86_many_false: TrapManager with 150 traps and a full well of 100 electrons."
  },
  {
   "property": "C87",
   "status": "proved",
   "theorems": [
    "Arctic.C87_bulk",
    "Arctic.C87_surface",
    "Arctic.C87_settings",
    "Arctic.C87_add_cti",
    "Arctic.C87_remove_cti",
    "Arctic.C87_others"
   ],
   "note": "C87_surface: one direction, bulk traps and any blooming level. C87_settings: one direction, the three settings of the readout. C87_add_cti, C87_remove_cti: all of them at once in both directions. C87_others: an example for each setting outside the conditions."
  },
  {
   "property": "C88",
   "status": "proved",
   "theorems": [
    "Arctic.C88_clock",
    "Arctic.C88_objects",
    "Arctic.C88_direction",
    "Arctic.C88_add_cti",
    "Arctic.C88_remove_cti",
    "Arctic.C88_above_false"
   ],
   "note": "C88_clock: any filling law and readout. C88_objects: one direction with Python objects. C88_add_cti, C88_remove_cti: both directions. C88_above_false: a pixel of 80 electrons, notch 40, 1000 traps."
  },
  {
   "property": "C89",
   "status": "proved",
   "theorems": [
    "Arctic.C89_clock",
    "Arctic.C89_injection",
    "Arctic.C89_add_cti",
    "Arctic.C89_remove_cti",
    "Arctic.C89_objects",
    "Arctic.C89_hst",
    "Arctic.C89_margin_false"
   ],
   "note": "C89_clock, C89_injection (one direction), C89_add_cti, C89_remove_cti (both directions, no time window). C89_objects, C89_hst: Python objects, parallel clocking. C89_margin_false: a cloud of 101 electrons in a well of 100. The class with capture times is not covered."
  },
  {
   "property": "C90",
   "status": "proved",
   "theorems": [
    "Arctic.C90_clock",
    "Arctic.C90_injection",
    "Arctic.C90_add_cti",
    "Arctic.C90_remove_cti",
    "Arctic.C90_objects",
    "Arctic.C90_hst",
    "Arctic.C90_margin_false",
    "Arctic.C90_phases_false",
    "Arctic.C90_slow_false"
   ],
   "note": "C90_clock, C90_injection (one direction, one column), C90_add_cti, C90_remove_cti (no time window). C90_objects, C90_hst: Python objects, parallel clocking. C90_margin_false, C90_phases_false, C90_slow_false: counterexamples. Groups that track the time elapsed are not covered: their watermarks after a full cloud are not canonical."
  },
  {
   "property": "C91",
   "status": "proved",
   "theorems": [
    "Arctic.C91_background_both",
    "Arctic.C91_add_cti",
    "Arctic.C91_background",
    "Arctic.C91_hst",
    "Arctic.C91_many_false",
    "Arctic.C91_express_false"
   ],
   "note": "C91_add_cti (both directions), C91_background, C91_background_both and C91_hst (power at most one over a background). C91_many_false, C91_express_false: counterexamples."
  },
  {
   "property": "C92",
   "status": "proved",
   "theorems": [
    "Arctic.C92_background_both",
    "Arctic.C92_background_both_noise",
    "Arctic.C92_hst_noise",
    "Arctic.C92_inverse",
    "Arctic.C92_noise",
    "Arctic.C92_background",
    "Arctic.C92_background_noise",
    "Arctic.C92_hst",
    "Arctic.C92_dark_false"
   ],
   "note": "C92_inverse, C92_noise (both directions), C92_background, C92_background_noise, C92_background_both, C92_background_both_noise (power at most one over a background), C92_hst, C92_hst_noise. C92_dark_false: counterexample. The condition on every pixel replaces the condition on the total charge of C58."
  },
  {
   "property": "C93",
   "status": "proved",
   "theorems": [
    "Arctic.C93_direction",
    "Arctic.C93_add_cti",
    "Arctic.C93_size",
    "Arctic.C93_numpy"
   ],
   "note": "C93_direction (one direction), C93_add_cti (both directions), C93_size (numbers). wellFill_near, fillSet_steep, fillSet_shallow: the filling law computed in doubles, given the accuracy of `**`. np.sum is any function that adds all numbers in some order (AnyOrder); instances for addition from left to right and for numpy's pairwise order (sumPairwise). The accuracy of exp and ** is an assumption, expressed by kappa and phi. C93_numpy: the order of numpy's pairwise summation."
  },
  {
   "property": "C94",
   "status": "proved",
   "theorems": [
    "Arctic.C94_remove_cti",
    "Arctic.C94_truth",
    "Arctic.C94_size"
   ],
   "note": "C94_remove_cti (doubles against reals after n iterations), C94_truth (distance to the exact inverse, any n), C94_size (numbers). The same assumptions on the accuracy of `**` and `exp` as in C93."
  },
  {
   "property": "C95",
   "status": "proved",
   "theorems": [
    "Arctic.C95_parallel",
    "Arctic.C95_background",
    "Arctic.C95_directions",
    "Arctic.C95_exactly_false",
    "Arctic.C95_many_false"
   ],
   "note": "C95_parallel (power >= 1), C95_background (power <= 1), C95_directions (parallel and serial), C95_exactly_false and C95_many_false (where the plain claim fails). express = 0 only: the error of express is bounded separately (C82)."
  },
  {
   "property": "C96",
   "status": "proved",
   "theorems": [
    "Arctic.C96_add_cti",
    "Arctic.C96_remove_cti",
    "Arctic.C96_parallel",
    "Arctic.C96_depth",
    "Arctic.C96_faint",
    "Arctic.C96_linear",
    "Arctic.C96_saturated_false",
    "Arctic.C96_same_traps_false"
   ],
   "note": "C96_add_cti and C96_remove_cti (both directions), C96_parallel, C96_depth (a), C96_faint (b), C96_linear (c), C96_saturated_false and C96_same_traps_false (where it fails). Exact arithmetic, express = 0."
  },
  {
   "property": "C97",
   "status": "proved",
   "theorems": [
    "Arctic.C97_doubles",
    "Arctic.C97_round",
    "Arctic.C97_operations",
    "Arctic.C97_signs",
    "Arctic.C97_special",
    "Arctic.C97_comparisons"
   ],
   "note": "C97_doubles, C97_round, C97_operations, C97_signs, C97_special, C97_comparisons. A property of the number format the code computes with; that numpy and the C compiler use it is an assumption."
  },
  {
   "property": "C98",
   "status": "proved",
   "theorems": [
    "Arctic.C98_add_cti",
    "Arctic.C98_remove_cti",
    "Arctic.C98_background",
    "Arctic.C98_same",
    "Arctic.C98_saturated_false"
   ],
   "note": "C98_same (any power), C98_add_cti and C98_remove_cti (both directions, power >= 1), C98_background (parallel, power <= 1), C98_saturated_false refutes the law for full wells."
  },
  {
   "property": "C99",
   "status": "proved",
   "theorems": [
    "Arctic.C99_inverse",
    "Arctic.C99_noise",
    "Arctic.C99_background",
    "Arctic.C99_hst"
   ],
   "note": "C99_inverse and C99_noise (both directions, power >= 1), C99_background (parallel, power <= 1), C99_hst (preset)."
  },
  {
   "property": "C100",
   "status": "proved",
   "theorems": [
    "Arctic.C100_before",
    "Arctic.C100_first",
    "Arctic.C100_charge_false",
    "Arctic.C100_trail_false"
   ],
   "note": "C100_before and C100_first hold; the documented behaviour is refuted by C100_charge_false (charge is created) and C100_trail_false (the trail ends)."
  },
  {
   "property": "C101",
   "status": "proved",
   "theorems": [
    "Arctic.C101_add_cti",
    "Arctic.C101_parallel",
    "Arctic.C101_inverse",
    "Arctic.C101_noise",
    "Arctic.C101_inverse_parallel",
    "Arctic.C101_dark_false"
   ],
   "note": "C101_add_cti, C101_parallel: reference; C101_inverse, C101_inverse_parallel, C101_noise; C101_dark_false shows that the condition on the pixels is needed."
  },
  {
   "property": "C102",
   "status": "proved",
   "theorems": [
    "Arctic.C102_add_cti",
    "Arctic.C102_parallel",
    "Arctic.C102_first_false"
   ],
   "note": "C102_add_cti, C102_parallel; C102_first_false shows that traps must be empty at the first transfers."
  },
  {
   "property": "C103",
   "status": "proved",
   "theorems": [
    "Arctic.C103_add_cti",
    "Arctic.C103_parallel",
    "Arctic.C103_inverse",
    "Arctic.C103_noise",
    "Arctic.C103_inverse_parallel",
    "Arctic.C103_serial"
   ],
   "note": "C103_add_cti, C103_parallel, C103_inverse, C103_inverse_parallel, C103_noise; the number of traps is counted as in C101."
  },
  {
   "property": "C104",
   "status": "proved",
   "theorems": [
    "Arctic.C104_add_cti",
    "Arctic.C104_parallel"
   ],
   "note": "C104_add_cti, C104_parallel; that traps must be empty at the first transfers is shown by C102_first_false."
  },
  {
   "property": "C105",
   "status": "proved",
   "theorems": [
    "Arctic.C105_add_cti",
    "Arctic.C105_accuracy",
    "Arctic.C105_remove_cti",
    "Arctic.C105_inverse",
    "Arctic.C105_noise"
   ],
   "note": "C105_add_cti (reference), C105_accuracy, C105_remove_cti, C105_inverse, C105_noise."
  },
  {
   "property": "C106",
   "status": "proved",
   "theorems": [
    "Arctic.C106_parallel",
    "Arctic.C106_directions"
   ],
   "note": "C106_parallel, C106_directions; that the changes do not add up exactly is shown by C95_exactly_false."
  },
  {
   "property": "C107",
   "status": "proved",
   "theorems": [
    "Arctic.C107_clock",
    "Arctic.C107_add_cti",
    "Arctic.C107_remove_cti"
   ],
   "note": "C107_clock (one direction), C107_add_cti, C107_remove_cti; C84 is the same for traps that capture at once with any number of phases."
  },
  {
   "property": "C108",
   "status": "proved",
   "theorems": [
    "Arctic.C108_add_cti",
    "Arctic.C108_remove_cti"
   ],
   "note": "C108_add_cti, C108_remove_cti; C89_margin_false shows that the margin is needed."
  },
  {
   "property": "C109",
   "status": "proved",
   "theorems": [
    "Arctic.C109_add_cti",
    "Arctic.C109_missing",
    "Arctic.C109_superfluous"
   ],
   "note": "C109_add_cti, C109_missing, C109_superfluous; C81 is about wrong densities and release times of instant-capture traps."
  },
  {
   "property": "C110",
   "status": "proved",
   "theorems": [
    "Arctic.C110_add_cti",
    "Arctic.C110_remove_cti"
   ],
   "note": "C110_add_cti, C110_remove_cti; extends C81 from instant-capture traps to all classes (with 4 instead of 2 in lambda)."
  },
  {
   "property": "C111",
   "status": "proved",
   "theorems": [
    "Arctic.C111_add_cti",
    "Arctic.C111_parallel",
    "Arctic.C111_inverse",
    "Arctic.C111_noise",
    "Arctic.C111_inverse_parallel"
   ],
   "note": "C111_add_cti, C111_parallel (reference), C111_inverse, C111_inverse_parallel, C111_noise; extends C92 over a background from instant-capture traps, and C103 from well_fill_power \u2265 1."
  },
  {
   "property": "C112",
   "status": "proved",
   "theorems": [
    "Arctic.C112_add_cti",
    "Arctic.C112_remove_cti"
   ],
   "note": "C112_add_cti, C112_remove_cti; extends C98 from instant-capture traps below saturation and C110 from errors of the traps alone."
  },
  {
   "property": "C113",
   "status": "proved",
   "theorems": [
    "Arctic.C113_add_cti",
    "Arctic.C113_remove_cti",
    "Arctic.C113_logNormal"
   ],
   "note": "C113_add_cti, C113_remove_cti, C113_logNormal; extends C65 to distributions of lifetimes."
  },
  {
   "property": "C114",
   "status": "proved",
   "theorems": [
    "Arctic.C114_add_cti",
    "Arctic.C114_remove_cti",
    "Arctic.C114_remove_cti_back"
   ],
   "note": "C114_add_cti, C114_remove_cti, C114_remove_cti_back; bins stated as `Bins`, replaced groups as `Binned`."
  },
  {
   "property": "C115",
   "status": "proved",
   "theorems": [
    "Arctic.C115_add_cti",
    "Arctic.C115_add_cti_bins",
    "Arctic.C115_remove_cti",
    "Arctic.C115_remove_cti_bins"
   ],
   "note": "C115_add_cti, C115_remove_cti for errors of densities and timescales (NearAll); C115_add_cti_bins, C115_remove_cti_bins for bins (Binned)."
  },
  {
   "property": "C116",
   "status": "proved",
   "theorems": [
    "Arctic.C116_add_cti",
    "Arctic.C116_parallel",
    "Arctic.C116_inverse",
    "Arctic.C116_noise",
    "Arctic.C116_inverse_parallel"
   ],
   "note": "C116_add_cti, C116_parallel, C116_inverse, C116_inverse_parallel, C116_noise; the background is stated as OverNotch, the slope of the filling law as notchSlope."
  },
  {
   "property": "C117",
   "status": "proved",
   "theorems": [
    "Arctic.C117_add_cti",
    "Arctic.C117_add_cti_bins",
    "Arctic.C117_remove_cti",
    "Arctic.C117_remove_cti_bins"
   ],
   "note": "C117_add_cti, C117_remove_cti for errors of densities and timescales (NearAll); C117_add_cti_bins, C117_remove_cti_bins for bins (Binned)."
  },
  {
   "property": "C118",
   "status": "proved",
   "theorems": [
    "Arctic.C118_add_cti",
    "Arctic.C118_remove_cti",
    "Arctic.C118_full_well"
   ],
   "note": "C118_add_cti, C118_remove_cti for any two filling laws that are close from b electrons on (VolumesNear); C118_full_well for an error of full_well_depth."
  },
  {
   "property": "C119",
   "status": "proved",
   "theorems": [
    "Arctic.C119_add_cti",
    "Arctic.C119_add_cti_bins",
    "Arctic.C119_remove_cti",
    "Arctic.C119_remove_cti_bins"
   ],
   "note": "C119_add_cti, C119_remove_cti for NearAll and VolumesNear; C119_add_cti_bins, C119_remove_cti_bins for Binned and VolumesNear."
  },
  {
   "property": "C120",
   "status": "proved",
   "theorems": [
    "Arctic.C120_add_cti",
    "Arctic.C120_remove_cti",
    "Arctic.C120_remove_cti_bins"
   ],
   "note": "C120_add_cti, C120_remove_cti for NearAll and VolumesNear; C120_remove_cti_bins for Binned and VolumesNear."
  },
  {
   "property": "C121",
   "status": "proved",
   "theorems": [
    "Arctic.C121_add_cti",
    "Arctic.C121_remove_cti",
    "Arctic.C121_add_parallel",
    "Arctic.C121_remove_parallel"
   ],
   "note": "C121_add_cti, C121_remove_cti for parallel and serial clocking, C121_add_parallel, C121_remove_parallel for parallel clocking only; NearCcds 1 w 1 w' compares timescales in units of the dwell times."
  },
  {
   "property": "C122",
   "status": "proved",
   "theorems": [
    "Arctic.C122_remove_cti",
    "Arctic.C122_remove_parallel"
   ],
   "note": "C122_remove_cti for parallel and serial clocking, C122_remove_parallel for parallel clocking only."
  },
  {
   "property": "C123",
   "status": "proved",
   "theorems": [
    "Arctic.C123_parallel",
    "Arctic.C123_add_cti",
    "Arctic.C123_missing",
    "Arctic.C123_surplus"
   ],
   "note": "C123_parallel (superposition), C123_add_cti, C123_missing, C123_surplus."
  },
  {
   "property": "C124",
   "status": "proved",
   "theorems": [
    "Arctic.C124_add_cti",
    "Arctic.C124_parallel"
   ],
   "note": "C124_add_cti, C124_parallel for NotchObjects and OverNotch with 2k at most 1."
  },
  {
   "property": "C125",
   "status": "proved",
   "theorems": [
    "Arctic.C125_add_cti",
    "Arctic.C125_remove_cti",
    "Arctic.C125_parallel",
    "Arctic.C125_remove_parallel"
   ],
   "note": "C125_add_cti and C125_parallel for two images, C125_remove_cti and C125_remove_parallel; NotchObjects and OverNotch, k at most 1."
  },
  {
   "property": "C126",
   "status": "proved",
   "theorems": [
    "Arctic.C126_remove_cti",
    "Arctic.C126_parallel"
   ],
   "note": "C126_remove_cti, C126_parallel; NotchObjects and OverNotch, k at most 1."
  }
 ]
}