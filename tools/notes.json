{
 "C02": {
  "note": "As titled the claim is false; C02_fails_iff characterises exactly when the call raises, C02_counterexample is a concrete instance."
 },
 "C07": {
  "note": "Holds with the stated side condition for first-transfer mode; C07_counterexample shows that condition is needed."
 },
 "C09": {
  "note": "C09_default_time_window and C09_counterexample show the truncation through add_cti's default."
 },
 "C10": {
  "note": "Claim is false for the default n_pixel_transfers=None: C10_frozen (general), C10_counterexample; C10_unchanged is the part that holds."
 },
 "C11": {
  "note": "Float dtype proved; int dtype false (C11_int_counterexample), never fewer pumps (C11_int_at_least)."
 },
 "C12": {
  "note": "False for two or more pixels (C12_multi_pixel_raises, for all inputs); holds for one."
 },
 "C16": {
  "note": "Any state with an unused row, and every history within budget, for instant capture and elapsed times. Slow capture: histories up to two thirds of the budget; C16_slow_false is a failure inside the budget."
 },
 "C17": {
  "note": "C17_instant and C17_trackTime prove it; C17_slow_false and C17_instant_notch_false are the counterexamples; C17_slow_bound is what holds for slow capture."
 },
 "C18": {
  "note": "Instant capture and elapsed times for every history. Slow capture: false (C18_slow_false); C18_slow_step and C18_slow_heights say what holds."
 },
 "C19": {
  "note": "Instant capture and elapsed times for every history. Slow capture false (C19_slow_false), C19_slow_bound is the safe part; C19_not_emptied_false is the not-emptied case."
 },
 "C21": {
  "note": "From every well-formed state when the released electrons do not lift the cloud above the highest level (otherwise see C18_slow_false)."
 },
 "C23": {
  "note": "False as titled: C23_typeError_iff shows a shortage always raises TypeError, and nothing else does; C23_false is a concrete instance."
 },
 "C15": {
  "note": "Forced release and phases of the readout: proved for every trap system whose reactions do not themselves overrun. Otherwise: C15_unforced_false (every configuration with two or more phases whose last phase holds traps fails), C15_extra_phase_false (every readout class)."
 },
 "C34": {
  "note": "Standard readout and trap pumping proved; charge injection is a counterexample (C34_injection_false)."
 },
 "C35": {
  "note": "Standard readout with forced release through add_cti, and charge injection; any express value; both runs assumed to return."
 },
 "C48": {
  "note": "Non-negative images; the statement compares processing all phases with processing only those with traps."
 },
 "C25": {
  "note": "Over the reals. C25_zero_dwell is the NaN case; C25_rate_equation ties the formulas to the trap rate equation independently of the code."
 },
 "C36": {
  "note": "C36_convergence assumes the local contraction of the change made by add_cti; exPixel and the example after it discharge that assumption for a concrete configuration."
 },
 "C40": {
  "note": "C40_negative_notch_false shows why the notch must not be negative."
 },
 "C41": {
  "note": "C41_default_bloom and C41_surface are the two defects in the statement."
 },
 "C42": {
  "note": "C42_cooling states the direction of the release-time change at the cooling date."
 },
 "C43": {
  "note": "False as titled: C43_no_serial_clocker, C43_serial_clocker, C43_records and C43_never_recorded characterise exactly what is recorded or raised for all arguments; C43_false is the counterexample."
 },
 "C44": {
  "note": "C44_capture_false: the capture timescale of a slow trap is lost."
 },
 "C45": {
  "note": "Integrals as Lebesgue integrals over the reals; scipy.integrate.quad and root finding are idealised (DESIGN.md)."
 },
 "C31": {
  "note": "Account proved for every column through all passes; the no-creation consequence for standard readout with empty traps for first transfers and charge injection; counterexample for saved trap states."
 },
 "C32": {
  "note": "False in general: three counterexamples; true part C32_one_group."
 },
 "C33": {
  "note": "C33_split and C33_default for the default readout flags; C33_saved_states_false and C33_express_false are counterexamples outside them."
 },
 "C51": {
  "note": "C51_clock and C51_add_cti (instant capture and elapsed times); C51_slow_false is an add_cti call with finite capture time that overruns the watermark array; C51_injection_false shows that charge injection with a window not starting at row 0 never completes."
 },
 "C52": {
  "note": "Claim is false: C52_full_array_false."
 },
 "C53": {
  "note": "C53_add_cti: express 0 in both directions; C53_clock: one direction, any express value, window and offset. Fill function positive for positive clouds (no notch), fraction kept below 1."
 },
 "C54": {
  "note": "Readouts with traps emptied between columns and within the watermark budget (no saves, pumping, or full readout)."
 },
 "C55": {
  "note": "C55_add_cti both directions, C55_parallel, C55_hst for the HST ACS preset, C55_missing for absent objects."
 },
 "C57": {
  "note": "C57_add_cti (both directions, objects), C57_clock (one direction, any express value and filling law), C57_background and C57_hst (power at most one over a background; both directions in C91_background_both), C57_false (too many traps)."
 },
 "C58": {
  "note": "C58_remove_cti (both directions, power >= 1), C58_limit (error below any bound), C58_background (parallel, power <= 1, over a background), C58_hst (HST preset). Over the reals, express = 0, notch 0, whole image windows."
 },
 "C56": {
  "note": "C56_passes (ROE matrix), C56_calls (calls of the clocking loops, any trap system), C56_counting (the counter does not change the computation)."
 },
 "C59": {
  "note": "C59_assign (the object equals the constructed one), C59_constructors, C59_dtype_refused; the false cases: C59_force_ignored, C59_longer_false, C59_shorter_false, C59_odd_kept."
 },
 "C60": {
  "note": "C60_separate, C60_shared, C60_unchanged, C60_history; false for charge injection without n_pixel_transfers: C60_injection_false."
 },
 "C66": {
  "note": "C66_add_cti and C66_remove_cti (windows: whole image), C66_clock (any row window followed by farther rows, any columns). Instant capture, emptied traps, forced release, express = 0. C66_express_false: counterexample for express = 2."
 },
 "C67": {
  "note": "C67_safe: any lawful arithmetic; C67_double: IEEE binary64 (B64.lawful) with any np.sum; C67_well_filling: the code's well filling is admissible; C67_nonneg; C67_exact and C67_configuration tie this copy of the code to the other modules; C67_nan_raises: the IndexError occurs. Express matrix entries enter as arbitrary doubles. Slow-capture traps and stored trap states are not included (except in C67_nonneg). C67_any_configuration, C67_call: with the express matrix computed in the same arithmetic; C67_exact_call."
 },
 "C68": {
  "note": "C68_columns, C68_untouched, C68_causality with C68_forward: any arithmetic without laws, any trap class. C68_several_phases_false: counterexample in double precision; C68_products_differ: the reason."
 },
 "C69": {
  "note": "C69_column_sum; C69_divides with C69_express_zero; C69_int; C69_close: ProductsNotBelow is enough; C69_positive_iff: before the insertion of first transfers it is necessary as well; C69_product_below, C69_rows_move: counterexample."
 },
 "C70": {
  "note": "C70_add_safe, C70_remove_safe; C70_nonneg and C70_add_untouched, C70_remove_outside, C70_columns: any arithmetic; C70_remove_untouched: double precision; C70_infinite_pixel: the exception occurs; C70_exact ties the functions to the other modules."
 },
 "C71": {
  "note": "C71_clocking, C71_add_cti, C71_remove_cti: any managers; C71_objects, C71_add_cti_objects, C71_remove_cti_objects: trap objects; C71_grouping_matters, C71_first_decides, C71_mixed_order: the limits."
 },
 "C72": {
  "note": "C72_add_own, C72_remove_own: memory; C72_add, C72_remove, C72_remove_float32: values and types; C72_remove_int, C72_remove_bool, C72_unsupported: what raises; C72_remove_no_traps, C72_remove_zero: copies."
 },
 "C73": {
  "note": "C73_traps: the caller's traps and the densities of the managers; C73_saved: saved states; C73_clocking: clocking with objects is clocking with values; C73_setter: assignment of densities, C73_setter_length and C73_setter_twice: its limits."
 },
 "C74": {
  "note": "C74_clock: one direction; C74_parallel and C74_serial: add_cti with Python objects; C74_shape, C74_complete, C74_exponential: consequences; C74_no_notch_false: the limit. The conditions (bright pixel not used up, others within the notch to the end) follow from a capacity bound, BrightPixel.of_capacity."
 },
 "C75": {
  "note": "False as stated. C75_natural: the model with integers is the main model for natural numbers; C75_all_negative, C75_negative_pixel: what raises; C75_out_of_bounds, C75_pumping: the counterexamples, for traps whose computation does not raise; C75_never_returns: with the managers of arcticpy no such call returns. C75_from_end: the matrices do count from the end."
 },
 "C76": {
  "note": "C76_transfers, C76_consecutive hold; C76_shared_end_false, C76_negative_start_false, C76_fractions_false, C76_serial_first_false, C76_serial_second_false give the exact deviation. C76_total: any pair of numbers."
 },
 "C77": {
  "note": "False as stated for charge injection without n_pixel_transfers (C77_injection_false, C77_poison_false). C77_agree ties the model to addCtiHeap; C77_at_most says what can change in general; C77_unchanged, C77_history hold for all other objects; C77_once for a single object."
 },
 "C78": {
  "note": "C78_neighbours, C78_first_half, C78_second_half: pixels touched, for all traps. C78_gain, C78_source: direction, for traps outside the first phase. The limits are needed: C78_first_phase_false, C78_express_false, C78_groups_false."
 },
 "C79": {
  "note": "C79_instant, C79_track_time: the two classes with instant capture (the second raises when there are not enough electrons; a call that raises ends the history). C79_split: what a split guarantees, for both classes. C79_slow_false, C79_slow_array_false: slow capture, an input with integer pixels where double precision is off by more than the pixel. np.sum is taken from left to right, which numpy does for fewer than eight numbers. C79_track_time_order_false: numpy's order for eight and more numbers gives a negative volume with elapsed times."
 },
 "C80": {
  "note": "C80_fractions, C80_slower, C80_slower_traps, C80_fast_instant: proved for single transfers from any well-formed state. C80_fast_instant_false, C80_image_false, C80_slower_image_false: what does not hold for images."
 },
 "C81": {
  "note": "C81_add_cti, C81_remove_cti: both directions, power at least 1. C81_background, C81_hst: parallel clocking, power at most 1 and a background. C81_pixel: the exact result for one pixel. Instant capture, one step per pixel, every transfer represented."
 },
 "C82": {
  "note": "C82_add_cti, C82_remove_cti: both directions, power at least 1. C82_background, C82_hst: parallel clocking, power at most 1 and a background. express_column: one column, any Lipschitz filling law. The constants (1/2, 10, 2, 3) are upper bounds; no lower bound is proved."
 },
 "C83": {
  "note": "C83_add_cti, C83_serial (with serial clocking after it), C83_compose, C83_standard: any power. C83_first, C83_first_linear, C83_rising, C83_express, C83_remove_cti: power at least 1. The number of transfers is given (n_pixel_transfers = None: C10; integer dtype of the pixels: C09)."
 },
 "C84": {
  "note": "C84_clock, C84_injection (one direction); C84_add_cti, C84_remove_cti (both directions; parallel_express etc. any value for which the code does not raise, no time window). C84_negative_false: an image with a negative pixel. The class with capture times is not covered. C84_hst: the HST preset, every date."
 },
 "C85": {
  "note": "C85_clock: one column of one direction, standard readout or charge injection. C85_add_cti, C85_corner, C85_centroid, C85_remove_cti: one group of instant-capture traps in each direction, traps with stored elapsed times excluded. C85_few_traps: with Python objects. C85_express_false: express = 1. C85_hst: the HST preset, every date."
 },
 "C86": {
  "note": "C86_clock: groups of reference traps, all readout classes of C61. C86_instant, C86_slow: one direction with Python objects, standard readout. C86_add_cti, C86_remove_cti: both directions, instant capture or lifetimes. C86_first: the class of the first trap. C86_many_false: TrapManager with 150 traps and a full well of 100 electrons."
 },
 "C87": {
  "note": "C87_surface: one direction, bulk traps and any blooming level. C87_settings: one direction, the three settings of the readout. C87_add_cti, C87_remove_cti: all of them at once in both directions. C87_others: an example for each setting outside the conditions."
 },
 "C88": {
  "note": "C88_clock: any filling law and readout. C88_objects: one direction with Python objects. C88_add_cti, C88_remove_cti: both directions. C88_above_false: a pixel of 80 electrons, notch 40, 1000 traps."
 },
 "C89": {
  "note": "C89_clock, C89_injection (one direction), C89_add_cti, C89_remove_cti (both directions, no time window). C89_objects, C89_hst: Python objects, parallel clocking. C89_margin_false: a cloud of 101 electrons in a well of 100. The class with capture times is not covered."
 },
 "C90": {
  "note": "C90_clock, C90_injection (one direction, one column), C90_add_cti, C90_remove_cti (no time window). C90_objects, C90_hst: Python objects, parallel clocking. C90_margin_false, C90_phases_false, C90_slow_false: counterexamples. Groups that track the time elapsed are not covered: their watermarks after a full cloud are not canonical."
 },
 "C91": {
  "note": "C91_add_cti (both directions), C91_background, C91_background_both and C91_hst (power at most one over a background). C91_many_false, C91_express_false: counterexamples."
 },
 "C92": {
  "note": "C92_inverse, C92_noise (both directions), C92_background, C92_background_noise, C92_background_both, C92_background_both_noise (power at most one over a background), C92_hst, C92_hst_noise. C92_dark_false: counterexample. The condition on every pixel replaces the condition on the total charge of C58."
 },
 "C93": {
  "note": "C93_direction (one direction), C93_add_cti (both directions), C93_size (numbers). wellFill_near, fillSet_steep, fillSet_shallow: the filling law computed in doubles, given the accuracy of `**`. np.sum is any function that adds all numbers in some order (AnyOrder); instances for addition from left to right and for numpy's pairwise order (sumPairwise). The accuracy of exp and ** is an assumption, expressed by kappa and phi. C93_numpy: the order of numpy's pairwise summation."
 },
 "C94": {
  "note": "C94_remove_cti (doubles against reals after n iterations), C94_truth (distance to the exact inverse, any n), C94_size (numbers). The same assumptions on the accuracy of `**` and `exp` as in C93."
 },
 "C95": {
  "note": "C95_parallel (power >= 1), C95_background (power <= 1), C95_directions (parallel and serial), C95_exactly_false and C95_many_false (where the plain claim fails). express = 0 only: the error of express is bounded separately (C82)."
 },
 "C96": {
  "note": "C96_add_cti and C96_remove_cti (both directions), C96_parallel, C96_depth (a), C96_faint (b), C96_linear (c), C96_saturated_false and C96_same_traps_false (where it fails). Exact arithmetic, express = 0."
 },
 "C97": {
  "note": "C97_doubles, C97_round, C97_operations, C97_signs, C97_special, C97_comparisons. A property of the number format the code computes with; that numpy and the C compiler use it is an assumption."
 },
 "C98": {
  "note": "C98_same (any power), C98_add_cti and C98_remove_cti (both directions, power >= 1), C98_background (parallel, power <= 1), C98_saturated_false refutes the law for full wells."
 },
 "C99": {
  "note": "C99_inverse and C99_noise (both directions, power >= 1), C99_background (parallel, power <= 1), C99_hst (preset)."
 },
 "C100": {
  "note": "C100_before and C100_first hold; the documented behaviour is refuted by C100_charge_false (charge is created) and C100_trail_false (the trail ends)."
 },
 "C101": {
  "note": "C101_add_cti, C101_parallel: reference; C101_inverse, C101_inverse_parallel, C101_noise; C101_dark_false shows that the condition on the pixels is needed."
 },
 "C102": {
  "note": "C102_add_cti, C102_parallel; C102_first_false shows that traps must be empty at the first transfers."
 },
 "C103": {
  "note": "C103_add_cti, C103_parallel, C103_inverse, C103_inverse_parallel, C103_noise; the number of traps is counted as in C101."
 },
 "C104": {
  "note": "C104_add_cti, C104_parallel; that traps must be empty at the first transfers is shown by C102_first_false."
 },
 "C105": {
  "note": "C105_add_cti (reference), C105_accuracy, C105_remove_cti, C105_inverse, C105_noise."
 },
 "C106": {
  "note": "C106_parallel, C106_directions; that the changes do not add up exactly is shown by C95_exactly_false."
 },
 "C107": {
  "note": "C107_clock (one direction), C107_add_cti, C107_remove_cti; C84 is the same for traps that capture at once with any number of phases."
 },
 "C108": {
  "note": "C108_add_cti, C108_remove_cti; C89_margin_false shows that the margin is needed."
 },
 "C109": {
  "note": "C109_add_cti, C109_missing, C109_superfluous; C81 is about wrong densities and release times of instant-capture traps."
 },
 "C110": {
  "note": "C110_add_cti, C110_remove_cti; extends C81 from instant-capture traps to all classes (with 4 instead of 2 in lambda)."
 },
 "C111": {
  "note": "C111_add_cti, C111_parallel (reference), C111_inverse, C111_inverse_parallel, C111_noise; extends C92 over a background from instant-capture traps, and C103 from well_fill_power ≥ 1."
 },
 "C112": {
  "note": "C112_add_cti, C112_remove_cti; extends C98 from instant-capture traps below saturation and C110 from errors of the traps alone."
 },
 "C113": {
  "note": "C113_add_cti, C113_remove_cti, C113_logNormal; extends C65 to distributions of lifetimes."
 },
 "C114": {
  "note": "C114_add_cti, C114_remove_cti, C114_remove_cti_back; bins stated as `Bins`, replaced groups as `Binned`."
 },
 "C115": {
  "note": "C115_add_cti, C115_remove_cti for errors of densities and timescales (NearAll); C115_add_cti_bins, C115_remove_cti_bins for bins (Binned)."
 },
 "C116": {
  "note": "C116_add_cti, C116_parallel, C116_inverse, C116_inverse_parallel, C116_noise; the background is stated as OverNotch, the slope of the filling law as notchSlope."
 },
 "C117": {
  "note": "C117_add_cti, C117_remove_cti for errors of densities and timescales (NearAll); C117_add_cti_bins, C117_remove_cti_bins for bins (Binned)."
 },
 "C118": {
  "note": "C118_add_cti, C118_remove_cti for any two filling laws that are close from b electrons on (VolumesNear); C118_full_well for an error of full_well_depth."
 },
 "C119": {
  "note": "C119_add_cti, C119_remove_cti for NearAll and VolumesNear; C119_add_cti_bins, C119_remove_cti_bins for Binned and VolumesNear."
 },
 "C120": {
  "note": "C120_add_cti, C120_remove_cti for NearAll and VolumesNear; C120_remove_cti_bins for Binned and VolumesNear."
 },
 "C121": {
  "note": "C121_add_cti, C121_remove_cti for parallel and serial clocking, C121_add_parallel, C121_remove_parallel for parallel clocking only; NearCcds 1 w 1 w' compares timescales in units of the dwell times."
 },
 "C122": {
  "note": "C122_remove_cti for parallel and serial clocking, C122_remove_parallel for parallel clocking only."
 },
 "C123": {
  "note": "C123_parallel (superposition), C123_add_cti, C123_missing, C123_surplus."
 },
 "C124": {
  "note": "C124_add_cti, C124_parallel for NotchObjects and OverNotch with 2k at most 1."
 },
 "C125": {
  "note": "C125_add_cti and C125_parallel for two images, C125_remove_cti and C125_remove_parallel; NotchObjects and OverNotch, k at most 1."
 },
 "C126": {
  "note": "C126_remove_cti, C126_parallel; NotchObjects and OverNotch, k at most 1."
 }
}