{"id": "C01", "title": "Every pixel undergoes exactly its number of transfers", "statement": "Whenever ROE returns an express matrix, the multipliers of pixel p, summed over the express passes, equal p+1+offset: the express approximation never adds or drops a transfer.", "quantifier": "every window, express value, offset >= 0, multiplier dtype (int/float) and first-transfer setting", "why_tests_cant": "the test samples a dozen (pixels, express, offset) triples; the claim is for all naturals and involves rounding", "anchors": ["arcticpy/roe.py:ROE.express_matrix_and_monitor_traps_matrix_from_pixels_and_express"]}
{"id": "C02", "title": "The express matrix exists for every express value", "statement": "For every non-empty window and every express >= 0, ROE returns an express matrix instead of raising. (False as stated: the default ROE raises IndexError exactly when express = n_pixels-1.)", "quantifier": "every window, express, offset, dtype, first-transfer setting", "why_tests_cant": "the failing value depends on the image height; the sampled tests happen to miss it", "anchors": ["arcticpy/roe.py:ROE.express_matrix_and_monitor_traps_matrix_from_pixels_and_express"]}
{"id": "C03", "title": "Express multipliers are bounded and ordered", "statement": "All multipliers lie between 0 and ceil((n_pixels+offset)/express) (plus one for the separated first transfer), are whole numbers for dtype int, and without the first-transfer option never decrease with distance from readout, so each pass visits a suffix of the pixels.", "quantifier": "every window, express, offset, dtype", "why_tests_cant": "unbounded numeric ranges", "anchors": ["arcticpy/roe.py:ROE.express_matrix_and_monitor_traps_matrix_from_pixels_and_express"]}
{"id": "C04", "title": "express=0 is an alias of full computation", "statement": "express=0, express=n_pixels+offset and any larger express give the same matrix, in which every entry is 0 or 1 and pass k moves exactly the pixels p with p+offset >= k by one transfer.", "quantifier": "every window, offset, dtype, first-transfer setting", "why_tests_cant": "all sizes", "anchors": ["arcticpy/roe.py:ROE.express_matrix_and_monitor_traps_matrix_from_pixels_and_express"]}
{"id": "C05", "title": "Time windows partition the readout", "statement": "For consecutive time windows [a,b) and [b,c) the express matrices add up, entry by entry, to the matrix of [a,c); windows covering the whole readout add up to the unwindowed matrix; and the traps are monitored in the same places whatever the time window.", "quantifier": "every split point, window, express, offset", "why_tests_cant": "all split points and sizes; test uses one three-way split", "anchors": ["arcticpy/roe.py:ROE.restrict_time_span_of_express_matrix", "arcticpy/roe.py:ROE.express_matrix_and_monitor_traps_matrix_from_pixels_and_express"]}
{"id": "C06", "title": "The default time window changes nothing for standard readout", "statement": "add_cti() without time_window_range gives, for ROE readout, the same express matrix as no time window at all, and so the same image as clocking the parallel direction without a time window and then the serial direction.", "quantifier": "every image size, window, offset, express", "why_tests_cant": "all sizes", "anchors": ["arcticpy/main.py:add_cti", "arcticpy/roe.py:ROE.restrict_time_span_of_express_matrix"]}
{"id": "C07", "title": "Offset equals embedding in a taller image", "statement": "The matrix with an offset equals the matrix of an image taller by offset rows with the first offset columns removed. (With first-transfer emptying this is false when n_pixels <= express < n_pixels+offset: the first transfer is separated in one but not in the other; true in all other cases.)", "quantifier": "every window, express, offset, dtype", "why_tests_cant": "all sizes", "anchors": ["arcticpy/roe.py:ROE.express_matrix_and_monitor_traps_matrix_from_pixels_and_express"]}
{"id": "C08", "title": "Spatial windows only select", "statement": "The matrix for a window is the matrix for the full range up to the window's last pixel, restricted to the window's columns, entry for entry; monitored positions likewise.", "quantifier": "every window, express, offset, time window", "why_tests_cant": "all windows", "anchors": ["arcticpy/roe.py:ROE.express_matrix_and_monitor_traps_matrix_from_pixels_and_express"]}
{"id": "C09", "title": "Charge injection clocks every pixel the same number of times", "statement": "With ROEChargeInjection each pixel's multipliers sum to n_pixel_transfers. (True of the matrix without a time window; add_cti's default time window truncates the sum to min(n_pixel_transfers, n_rows+offset), and the int dtype raises NameError.)", "quantifier": "every image size, express, n_pixel_transfers", "why_tests_cant": "all sizes; the tests only use n_pixel_transfers <= n_rows+offset through add_cti", "anchors": ["arcticpy/roe.py:ROEChargeInjection", "arcticpy/main.py:add_cti"]}
{"id": "C10", "title": "Reusing a charge-injection ROE is history independent", "statement": "Calling add_cti with the same ROEChargeInjection object on a second image gives what a fresh object would give. (False: the first call freezes n_pixel_transfers=None to the first image's height.)", "quantifier": "every pair of image heights", "why_tests_cant": "depends on call history", "anchors": ["arcticpy/roe.py:ROEChargeInjection.express_matrix_and_monitor_traps_matrix_from_pixels_and_express"]}
{"id": "C11", "title": "Trap pumping performs n_pumps pumps", "statement": "For every pumped pixel the multipliers of the passes that are actually performed sum to n_pumps. (True for float; for int rounding can make the last multiplier negative, that pass is then skipped and too many pumps are applied.)", "quantifier": "every n_pumps >= 1, express, dtype, first-transfer setting, number of pixels", "why_tests_cant": "rounding behaviour over all naturals", "anchors": ["arcticpy/roe.py:ROETrapPumping.express_matrix_and_monitor_traps_matrix_from_pixels_and_express"]}
{"id": "C12", "title": "Trap pumping works for any set of pumped pixels", "statement": "ROETrapPumping builds its save matrix for any number of pixels. (False: any two or more pixels raise IndexError; for one pixel every pass but the last is saved.)", "quantifier": "every matrix shape", "why_tests_cant": "all shapes", "anchors": ["arcticpy/roe.py:ROETrapPumping.save_trap_states_matrix_from_express_matrix"]}
{"id": "C13", "title": "Clock sequence is physically consistent", "statement": "In every clocking step exactly one phase is high; the high phase captures from the pixel being processed at readout and returns all of its electrons to the pixel it captured from; in every phase the release fractions sum to 1 and one fraction is stored per release pixel. Every phase releases to a pixel whose cloud is nearest to it in that step.", "quantifier": "every number of phases and steps, readout and trap pumping, with or without forced release", "why_tests_cant": "tests look at 1-4 phases", "anchors": ["arcticpy/roe.py:ROEAbstract._generate_clock_sequence"]}
{"id": "C14", "title": "Clocking only touches the pixel and its neighbour", "statement": "With force_release_away_from_readout the pixels accessed relative to the current one are only 0 and +1; without it only -1, 0, +1.", "quantifier": "every number of phases, readout and trap pumping", "why_tests_cant": "tests look at 1-4 phases", "anchors": ["arcticpy/roe.py:ROEAbstract._generate_clock_sequence", "arcticpy/roe.py:ROEAbstract._generate_pixels_accessed_during_clocking"]}
{"id": "C15", "title": "Clocking never reads or writes outside a buffer", "statement": "add_cti() (bounds checks are compiled out) performs only in-range accesses of the padded image and of the clock sequence. (True for forced release and a CCD with traps only in phases that the ROE has; false without forced release: row -1 is accessed; false if the CCD has traps in a phase that the ROE does not have: the clock sequence is read beyond its end.)", "quantifier": "every image, window, phase count", "why_tests_cant": "memory safety for all shapes; an out-of-range access may silently succeed in a test", "anchors": ["arcticpy/main_utils.pyx:cy_clock_charge_in_one_direction"]}
{"id": "C16", "title": "Trap book-keeping conserves electrons", "statement": "For every kind of trap manager, the number returned by n_electrons_released_and_captured() is exactly the drop in the number of trapped electrons, as long as the watermark array has an unused row. (Holds for every history within max_n_transfers for instant capture and elapsed times; false for slow capture within the budget once all rows are used, guaranteed only for two thirds of it.)", "quantifier": "every trap state, cloud size, dwell time, filling function", "why_tests_cant": "all states and inputs", "anchors": ["arcticpy/trap_managers.py:TrapManager.n_electrons_released_and_captured", "arcticpy/trap_managers.py:TrapManagerInstantCapture.n_electrons_released_and_captured", "arcticpy/trap_managers.py:TrapManagerTrackTime"]}
{"id": "C17", "title": "Traps never take more electrons than the cloud holds", "statement": "The electrons captured never exceed the free electrons offered. (Proved for instant-capture traps when any non-empty cloud has positive volume; false for slow-capture traps, which can take electrons from an empty pixel - there the bound is offered plus released - and false for instant capture after a cloud inside the notch.)", "quantifier": "every reachable trap state and cloud size", "why_tests_cant": "rare not-enough branch, all reachable histories", "anchors": ["arcticpy/trap_managers.py:TrapManager.n_electrons_released_and_captured", "arcticpy/trap_managers.py:TrapManagerInstantCapture.n_electrons_captured", "arcticpy/trap_managers.py:TrapManager.updated_watermarks_from_capture_not_enough"]}
{"id": "C18", "title": "Watermarks stay well formed", "statement": "After any history of clouds, the watermark array is a block of positive volumes followed by zeros, volumes add up to at most 1, fill fractions lie in [0,1], and trapped electrons lie between 0 and the total density. (False for slow-capture traps: a negative volume appears when released electrons lift the cloud above the highest watermark.)", "quantifier": "every finite history of transfers", "why_tests_cant": "all histories", "anchors": ["arcticpy/trap_managers.py:TrapManagerInstantCapture.n_electrons_captured", "arcticpy/trap_managers.py:TrapManager._n_electrons_released_and_captured__cloud_below_watermarks", "arcticpy/trap_managers_utils.pyx:cy_update_watermark_volumes_for_cloud_below_highest"]}
{"id": "C19", "title": "The watermark array never overflows", "statement": "The array allocated for max_n_transfers transfers never runs out of rows in any history of at most that many transfers, so no out-of-range write (bounds checks are off) can happen. (Holds for instant capture and elapsed times; false for slow capture, where a transfer can need three rows but two are reserved, and false when traps are not emptied between columns.)", "quantifier": "every history up to the budget", "why_tests_cant": "all histories", "anchors": ["arcticpy/trap_managers.py:TrapManager.__init__", "arcticpy/trap_managers_utils.pyx:cy_update_watermark_volumes_for_cloud_below_highest", "arcticpy/main_utils.pyx:cy_clock_charge_in_one_direction"]}
{"id": "C20", "title": "Watermarks represent the trap occupancy exactly", "statement": "Seen as a function from depth in the pixel to fill fraction, one instant-capture transfer multiplies the occupancy everywhere by the release factor and then sets it to 1 exactly up to the cloud's depth.", "quantifier": "every reachable state, depth, cloud with enough electrons", "why_tests_cant": "all states and depths", "anchors": ["arcticpy/trap_managers.py:TrapManagerInstantCapture"]}
{"id": "C21", "title": "Slow capture follows the Lindegren update at every depth", "statement": "Seen as a function of depth, one slow-capture transfer releases above the cloud and applies occupancy*p_full+(1-occupancy)*p_empty below it.", "quantifier": "every well-formed state, depth, cloud with enough electrons", "why_tests_cant": "all states and depths", "anchors": ["arcticpy/trap_managers.py:TrapManager.n_electrons_released_and_captured"]}
{"id": "C22", "title": "Elapsed-time tracking gives the same answer as fill fractions", "statement": "For ordinary exponential traps TrapManagerTrackTime returns the same net electrons as TrapManagerInstantCapture in every history in which there are always enough electrons. Consequently, whenever add_cti with traps that record elapsed times raises nothing, add_cti with the same traps recorded as fill fractions returns the same image.", "quantifier": "every finite history; every image, mix of groups, readout, window", "why_tests_cant": "all histories; relates two data representations", "anchors": ["arcticpy/trap_managers.py:TrapManagerTrackTime", "arcticpy/main.py:add_cti"]}
{"id": "C23", "title": "Elapsed-time tracking survives a shortage of electrons", "statement": "TrapManagerTrackTime completes a transfer when there are fewer electrons than traps. (False: it always raises TypeError then.)", "quantifier": "every state and cloud in the shortage branch", "why_tests_cant": "rare branch", "anchors": ["arcticpy/trap_managers.py:TrapManagerTrackTime.updated_watermarks_from_capture_not_enough"]}
{"id": "C24", "title": "Splitting a species changes nothing", "statement": "Replacing trap species by several with the same timescales and densities adding up to the original gives the same electrons released and captured in every history, and add_cti returns the same image (or raises the same exception) for all images and readouts.", "quantifier": "every history, every split of the densities; every image, readout, window and trap manager", "why_tests_cant": "all histories", "anchors": ["arcticpy/trap_managers.py:TrapManagerInstantCapture", "arcticpy/trap_managers_utils.pyx:cy_n_trapped_electrons_from_watermarks", "arcticpy/main.py:add_cti"]}
{"id": "C25", "title": "Fill probabilities are probabilities and compose in time", "statement": "The three fill probabilities lie in [0,1], filled traps stay at least as likely full as empty ones become, applying two dwell times in a row equals applying their sum, and instant-capture traps fill completely. (Except: an instant-capture trap and a dwell time of 0 give NaN.)", "quantifier": "every pair of positive timescales and non-negative dwell times, including infinite capture rate", "why_tests_cant": "all real parameters", "anchors": ["arcticpy/trap_managers.py:TrapManager.fill_probabilities_from_dwell_time", "arcticpy/traps.py:Trap.__init__"]}
{"id": "C26", "title": "Fill fraction and elapsed time are inverse", "statement": "time_elapsed_from_fill_fraction and fill_fraction_from_time_elapsed are mutually inverse, the fill fraction decreases from 1 towards 0, and electrons released in a dwell time equal the drop in fill fraction.", "quantifier": "all real times, fill fractions in (0,1], release timescales > 0", "why_tests_cant": "all reals", "anchors": ["arcticpy/traps.py:Trap.fill_fraction_from_time_elapsed", "arcticpy/traps.py:Trap.time_elapsed_from_fill_fraction", "arcticpy/traps.py:Trap.electrons_released_from_time_elapsed_and_dwell_time"]}
{"id": "C27", "title": "Columns are independent", "statement": "With empty_traps_between_columns, each output column depends only on the same input column: the result for any set and order of columns is the column-by-column result.", "quantifier": "every image, trap set, express, window", "why_tests_cant": "all images and column orders", "anchors": ["arcticpy/main_utils.pyx:cy_clock_charge_in_one_direction", "arcticpy/trap_managers.py:AllTrapManager.restore", "arcticpy/trap_managers.py:AllTrapManager.save"]}
{"id": "C28", "title": "Charge never goes negative", "statement": "If the input image is non-negative, so is the output, for any express value and any traps.", "quantifier": "every non-negative image and every configuration", "why_tests_cant": "all images", "anchors": ["arcticpy/main_utils.pyx:cy_clock_charge_in_one_direction"]}
{"id": "C29", "title": "No traps or no charge means no change", "statement": "add_cti with no traps returns the image; traps of zero density leave a non-negative image unchanged; an empty image stays empty.", "quantifier": "every image / configuration", "why_tests_cant": "all images", "anchors": ["arcticpy/main.py:add_cti", "arcticpy/main_utils.pyx:cy_clock_charge_in_one_direction"]}
{"id": "C30", "title": "Pixels outside the windows are untouched", "statement": "Columns outside the column window are returned unchanged, rows before the row window and beyond one row after it are unchanged, and inside the column window the result is the same as without a column window.", "quantifier": "every window and image", "why_tests_cant": "all windows", "anchors": ["arcticpy/main_utils.pyx:cy_clock_charge_in_one_direction", "arcticpy/main.py:add_cti"]}
{"id": "C31", "title": "Charge is conserved up to what stays in traps", "statement": "With full (express=0) readout (standard with empty traps for first transfers, or nothing between the first row and the register; charge injection; trap pumping) and one group of instant-capture traps (clouds of positive volume), for every column the input charge equals output charge plus charge in the padding row plus n_electrons_trapped_previously + n_electrons_trapped_currently; and if no trap state is carried between passes add_cti never creates charge. (With empty_traps_for_first_transfers=False charge is created.)", "quantifier": "every non-negative column, any number of phases", "why_tests_cant": "all images; inductive over the nested loops", "anchors": ["arcticpy/main_utils.pyx:cy_clock_charge_in_one_direction"]}
{"id": "C32", "title": "Charge is never created by the clamp", "statement": "add_cti never returns more total charge than it was given. (False in general: with several trap groups each group captures from the full cloud, negative input pixels are raised to 0, and saved trap states are restored after they have released; true for one instant-capture group, non-negative image, express=0 and empty traps for first transfers.)", "quantifier": "every image and trap set", "why_tests_cant": "all images", "anchors": ["arcticpy/main_utils.pyx:cy_clock_charge_in_one_direction"]}
{"id": "C33", "title": "Splitting the readout in time is exact for express=0", "statement": "Calling add_cti with express=0 for time window [t0,a) and then on the result for [a,t1) gives the same image as one call for [t0,t1); with t0=0 and t1=rows+offset, as one call without a time window. Holds for parallel and parallel-plus-serial clocking with the standard readout that empties traps for the first transfers and between columns and forces release away from readout. (False when traps are not emptied for the first transfers, and for express > 0.)", "quantifier": "every image, window, split time, offset, trap groups, phase count, optional serial direction", "why_tests_cant": "all images and split points", "anchors": ["arcticpy/main.py:add_cti", "arcticpy/main_utils.pyx:cy_clock_charge_in_one_direction"]}
{"id": "C34", "title": "Serial clocking is parallel clocking of the transposed image", "statement": "add_cti with only serial settings equals the transpose of add_cti of the transposed image with the same settings as parallel.", "quantifier": "every image and configuration of a standard ROE", "why_tests_cant": "all images", "anchors": ["arcticpy/main.py:add_cti"]}
{"id": "C35", "title": "Trails only form behind: causality", "statement": "Changing pixels farther from readout never changes the result for pixels nearer to it.", "quantifier": "every pair of images agreeing up to a row, forced release, traps emptied between columns and passes", "why_tests_cant": "all images; relational (two runs)", "anchors": ["arcticpy/main_utils.pyx:cy_clock_charge_in_one_direction"]}
{"id": "C36", "title": "CTI removal is the documented fixed-point iteration", "statement": "remove_cti with 0 iterations returns the image; each iteration adds image - add_cti(estimate); an estimate reproducing the image is never changed; without traps any number of iterations returns the image; if adding CTI changes images by a contraction the error shrinks geometrically.", "quantifier": "every image, number of iterations, configuration", "why_tests_cant": "all iteration counts", "anchors": ["arcticpy/main.py:remove_cti"]}
{"id": "C37", "title": "A single-pixel window is a one-element range", "statement": "Passing an int window equals passing range(i, i+1); not passing one equals range(0, n).", "quantifier": "every index and image", "why_tests_cant": "all indices", "anchors": ["arcticpy/main.py:add_cti"]}
{"id": "C38", "title": "Save/restore book-keeping accounts for all trapped electrons", "statement": "save and restore never change trapped-previously plus trapped-currently; restore after save gives back the saved state; (emptying before saving at the end of a column drops the trapped charge from the account).", "quantifier": "every sequence of save, restore and transfers", "why_tests_cant": "all sequences", "anchors": ["arcticpy/trap_managers.py:AllTrapManager"]}
{"id": "C39", "title": "Trap states are saved where the next pass starts", "statement": "Without first-transfer emptying, each pass but the last saves the trap state exactly once, at the pixel before the first pixel monitored in the next pass. (A single-row window with more than one pass raises UnboundLocalError.)", "quantifier": "every window, express, offset", "why_tests_cant": "all sizes", "anchors": ["arcticpy/roe.py:ROE.save_trap_states_matrix_from_express_matrix"]}
{"id": "C40", "title": "Well filling is a monotone map into [0,1]", "statement": "The cloud's fractional volume is 0 for no electrons and up to the notch, 1 at and above full well, within [0,1] and non-decreasing. (A negative notch depth gives a positive volume for no electrons.)", "quantifier": "all electron counts, 0 <= notch < full well, positive power", "why_tests_cant": "all reals", "anchors": ["arcticpy/ccd.py:CCD.well_filling_function", "arcticpy/util.py:set_min_max"]}
{"id": "C41", "title": "CCD parameters are broadcast or rejected", "statement": "Scalar parameters apply to every phase, lists must match the number of phases or ValueError is raised, and CCDPhase extracts exactly the phase's values. (well_bloom_level left as None becomes a list of lists; surface=True always raises AttributeError.)", "quantifier": "every phase count and parameter", "why_tests_cant": "all list lengths", "anchors": ["arcticpy/ccd.py:CCD", "arcticpy/ccd.py:CCDPhase"]}
{"id": "C42", "title": "HST ACS preset is physically valid for every date", "statement": "For every date from launch on, model_for_HST_ACS returns three species with positive densities in fixed proportions adding to the total, growing with date, with positive and ordered release times; earlier dates raise AssertionError. (The release times change at the cooling date in the direction opposite to thermal activation.)", "quantifier": "every real date", "why_tests_cant": "all reals, across the configuration-change dates", "anchors": ["arcticpy/main.py:model_for_HST_ACS"]}
{"id": "C43", "title": "FITS header records the settings", "statement": "update_fits_header_info records what it is given. (False: parallel trap/CCD settings are recorded only if a serial clocker is given, and any trap list raises.)", "quantifier": "every combination of arguments", "why_tests_cant": "all combinations", "anchors": ["arcticpy/util.py:update_fits_header_info"]}
{"id": "C44", "title": "Poisson trap sampling keeps the species' identity", "statement": "poisson_trap returns one trap per species per column, in order, with the species' release timescale; (the capture timescale is dropped).", "quantifier": "every trap list, shape, random outcome", "why_tests_cant": "all random outcomes", "anchors": ["arcticpy/traps.py:Trap.poisson_trap"]}
{"id": "C45", "title": "Lifetime continuum traps behave like mixtures of exponentials", "statement": "For any normalised non-negative lifetime distribution the fill fraction is 1 at time 0, within [0,1], non-increasing, and electrons released equal the drop in fill fraction; the log-normal distribution is normalised.", "quantifier": "all distributions / parameters, all times", "why_tests_cant": "all reals, integrals", "anchors": ["arcticpy/traps.py:TrapLifetimeContinuumAbstract", "arcticpy/traps.py:TrapLogNormalLifetimeContinuum.log_normal_distribution"]}
{"id": "C46", "title": "Ellipticity change is additive in density", "statement": "delta_ellipticity is proportional to density and a manager's value is the sum over its species.", "quantifier": "all densities and timescales", "why_tests_cant": "all reals", "anchors": ["arcticpy/traps.py:Trap.delta_ellipticity", "arcticpy/trap_managers.py:TrapManager.delta_ellipticity"]}
{"id": "C47", "title": "Traps are distributed over phases without loss", "statement": "AllTrapManager gives each phase density*fraction, so fractions adding to 1 preserve the total density; single traps, lists and lists of lists are accepted alike; the manager kind follows the first trap's type.", "quantifier": "every trap list and fraction list", "why_tests_cant": "all lists", "anchors": ["arcticpy/trap_managers.py:AllTrapManager.__init__"]}
{"id": "C48", "title": "Skipping phases without traps is sound", "statement": "Phases with zero trap fraction are skipped; processing them would return 0 electrons and leave the image unchanged.", "quantifier": "every image and configuration", "why_tests_cant": "all states", "anchors": ["arcticpy/main_utils.pyx:cy_clock_charge_in_one_direction"]}
{"id": "C49", "title": "Index arithmetic helpers equal their documentation", "statement": "roll_2d_vertical_1 equals np.roll by one; cy_value_in_cumsum is membership in the cumulative sums; the index helper returns the first level whose cumulative volume reaches the cloud.", "quantifier": "every array", "why_tests_cant": "all arrays", "anchors": ["arcticpy/trap_managers_utils.pyx:roll_2d_vertical_1", "arcticpy/trap_managers_utils.pyx:cy_value_in_cumsum", "arcticpy/trap_managers_utils.pyx:cy_watermark_index_above_cloud_from_cloud_fractional_volume"]}
{"id": "C50", "title": "Splitting and collapsing watermarks never changes the trapped electrons", "statement": "Inserting a watermark at the cloud's height and collapsing full watermarks leave the occupancy at every depth, and so the number of trapped electrons, unchanged.", "quantifier": "every well-formed array and cloud height", "why_tests_cant": "all arrays", "anchors": ["arcticpy/trap_managers_utils.pyx:cy_update_watermark_volumes_for_cloud_below_highest", "arcticpy/trap_managers.py:TrapManager.collapse_redundant_watermarks"]}
{"id": "C51", "title": "add_cti never raises for a standard readout", "statement": "add_cti with standard readout (forced release, traps emptied for first transfers and between columns) in either or both directions completes for every image and every list of groups with instant capture, whatever the pixel values, with any offset and any express value other than the last row of the window; with elapsed-time (continuum) traps the only exception possible is the TypeError of a failed inversion. (False for many traps with finite capture time, where the watermark array is overrun \u2014 for few such traps see C62 \u2014 and for charge injection with a row window that does not start at row 0: every such call raises IndexError.)", "quantifier": "every image, direction, window, offset, express value", "why_tests_cant": "no finite set of images shows that no input raises", "anchors": ["arcticpy/main.py:add_cti", "arcticpy/main_utils.pyx:cy_clock_charge_in_one_direction", "arcticpy/roe.py:ROEChargeInjection"]}
{"id": "C52", "title": "Traps never hold more electrons than there are traps when they are not emptied between columns", "statement": "With empty_traps_between_columns=False the electrons missing from the image after add_cti are at most the number of traps. (False: the watermark array has room for the transfers of one column; from then on the first unused row is taken to be row 0, trapped electrons are overwritten and vanish. In the example a row of six columns loses more electrons than its ten traps can hold.)", "quantifier": "counterexample", "why_tests_cant": "the loss is silent and looks like ordinary trapping", "anchors": ["arcticpy/trap_managers.py:AllTrapManager", "arcticpy/trap_managers_utils.pyx:cy_n_trapped_electrons_from_watermarks", "arcticpy/main_utils.pyx:cy_clock_charge_in_one_direction"]}
{"id": "C53", "title": "add_cti equals an explicit reference simulation", "statement": "With instant-capture traps and a single-phase standard readout, each pixel returned by add_cti equals the reference simulation in which the fill fraction of the traps is followed as a function of depth, electron counts are integrals over depth, and a readout is a sequence of passes over the rows of a column: with express=0, row r makes r+offset+1 transfers with multiplier 1; with any express value, the passes are those of the express matrix. The serial readout acts on the rows of the result of the parallel one; columns outside the window are unchanged.", "quantifier": "every image, offsets, dwell times, trap groups and species, well-fill function positive on positive clouds", "why_tests_cant": "equality with a specification for all images and parameters", "anchors": ["arcticpy/main.py:add_cti", "arcticpy/main_utils.pyx:cy_clock_charge_in_one_direction", "arcticpy/trap_managers.py:TrapManagerInstantCapture.n_electrons_released_and_captured", "arcticpy/roe.py:ROE.express_matrix_and_monitor_traps_matrix_from_pixels_and_express"]}
{"id": "C54", "title": "Watermarks are an exact representation of trap occupancy", "statement": "Clocking charge in one direction with instant-capture traps yields exactly the image obtained by following the full occupancy-by-depth profile of each species for every pixel, phase and saved state visited, in the same order of transfers.", "quantifier": "every image, readout that completes, number of phases, groups, species, express value, windows, offset", "why_tests_cant": "equality of two state machines over all runs", "anchors": ["arcticpy/trap_managers.py:TrapManagerInstantCapture", "arcticpy/trap_managers.py:AllTrapManager", "arcticpy/main_utils.pyx:cy_clock_charge_in_one_direction"]}
{"id": "C55", "title": "add_cti with arcticpy's own objects equals the reference simulation", "statement": "add_cti called with a CCD (one phase, no notch), a standard ROE and lists of TrapInstantCapture for parallel and serial clocking, express=0, returns in each pixel the reference simulation with the densities and exp(-dwell/tau) release of the given species and the power-law filling of the given full well depth. In particular traps, ccd, roe = model_for_HST_ACS(date), add_cti(image, ...) completes for every date from launch on and is the reference simulation for a full well of 84700 electrons and filling power 0.478. Traps given without a CCD raise AttributeError; a direction without traps leaves the image unchanged whatever its CCD and ROE.", "quantifier": "every image, date from launch on, trap list, full well depth, filling power, dwell time, offset", "why_tests_cant": "equality with a specification for all images, dates and trap parameters", "anchors": ["arcticpy/main.py:add_cti", "arcticpy/main.py:model_for_HST_ACS", "arcticpy/ccd.py:CCD", "arcticpy/trap_managers.py:AllTrapManager", "arcticpy/main_utils.pyx:cy_clock_charge_in_one_direction"]}
{"id": "C57", "title": "Brighter images stay brighter", "statement": "If no pixel of one image is brighter than the same pixel of another, the same holds after add_cti with instant-capture traps has been applied to both. (False in general: with well_fill_power 2 and 60 traps in a full well of 100 electrons, a pixel of 100 electrons comes out with 40 and one of 90 with 41.4. True for well_fill_power >= 1 if the traps per pixel times well_fill_power do not exceed full_well_depth; with express, if that number times the largest number of transfers represented by one computed transfer does not exceed it; for well_fill_power <= 1, in one or both directions, over a background at which the volume per electron of the clouds times the number of traps per pixel is at most 1, as in the HST preset.)", "quantifier": "every pair of images of the same shape, trap lists, dwell times, offsets, both directions; one direction for every express value, window and filling law", "why_tests_cant": "relates two arbitrary images over arbitrarily many transfers", "anchors": ["arcticpy/main.py:add_cti", "arcticpy/main_utils.pyx:cy_clock_charge_in_one_direction", "arcticpy/trap_managers.py:TrapManagerInstantCapture.n_electrons_released_and_captured", "arcticpy/ccd.py:CCD"]}
{"id": "C58", "title": "remove_cti converges to the image before CTI", "statement": "Take an image, apply add_cti to it with instant-capture traps, and apply remove_cti to the result with the same arguments. With q = (1-2k)^-(rows+offset) - 1 (for two directions, the product of both powers minus 1), where k is the number of traps per pixel times well_fill_power / full_well_depth, q <= 1 and every pixel of the image holding at least q times the total charge, remove_cti never fails and after n iterations the sum of the absolute pixel errors is at most q^(n+1) times the total charge; it tends to 0 if q < 1. The same holds for well_fill_power <= 1 (as in the HST preset) over a background, with k the number of traps per pixel times the cloud volume per electron at the background.", "quantifier": "every image with enough charge in each pixel, every trap list, dwell time, offset, number of iterations and every date of the HST preset", "why_tests_cant": "an error bound for every number of iterations and every image; the fixed point iteration converges only for small enough trap numbers", "anchors": ["arcticpy/main.py:remove_cti", "arcticpy/main.py:add_cti", "arcticpy/main.py:model_for_HST_ACS", "arcticpy/main_utils.pyx:cy_clock_charge_in_one_direction"]}
{"id": "C56", "title": "express bounds the work", "statement": "For every ROE, the transfer of each pixel in the window is computed at least once, and at most express times plus once if the first transfers are done separately (express = 0: exactly the pixel's number of transfers). One run of cy_clock_charge_in_one_direction calls n_electrons_released_and_captured exactly (columns) x (computed transfers) x (steps with dwell time) x (phases with traps) times, which for express > 0 is at most columns x pixels x (express + 1) x steps x phases for all three readout classes.", "quantifier": "every window, offset, express value, time window, readout object, image, CCD and trap list for which the call succeeds", "why_tests_cant": "a bound on the number of calls for all image sizes and express values; running code only shows its own count", "anchors": ["arcticpy/roe.py:express_matrix_and_monitor_traps_matrix_from_pixels_and_express", "arcticpy/main_utils.pyx:cy_clock_charge_in_one_direction", "arcticpy/trap_managers.py:n_electrons_released_and_captured"]}
{"id": "C59", "title": "A ROE object can be changed by assigning to its attributes", "statement": "After assigning to an attribute of a ROE object, add_cti behaves as with an object constructed with that value. (True for dwell_times with the same number of steps, express_matrix_dtype, empty_traps_for_first_transfers, empty_traps_between_columns, n_pumps and n_pixel_transfers. False otherwise, because the clock sequence is computed only by the constructor: assigning force_release_away_from_readout has no effect; a longer dwell_times with a positive new dwell time makes every call read beyond the clock sequence; a shorter one is silently clocked with the first steps of the old sequence; an odd number of steps for trap pumping raises but is kept and used by the next call.)", "quantifier": "every ROE object of the three classes, every attribute and value, every image, CCD, trap list and window", "why_tests_cant": "a statement about every sequence of assignments and calls; the tests construct a new object each time", "anchors": ["arcticpy/roe.py:ROEAbstract", "arcticpy/roe.py:ROE", "arcticpy/roe.py:ROEChargeInjection", "arcticpy/roe.py:ROETrapPumping", "arcticpy/main_utils.pyx:cy_clock_charge_in_one_direction"]}
{"id": "C60", "title": "ROE objects can be shared and reused", "statement": "Giving one ROE object to add_cti for both directions returns the same as giving two equal objects, and no call returns anything that depends on the calls made before. (True for ROE, ROETrapPumping and ROEChargeInjection with n_pixel_transfers; false for ROEChargeInjection without it, which stores the number of rows in the parallel direction and uses it for the serial direction.)", "quantifier": "every heap of ROE objects, every pair of references (equal or not), every finite history of calls with any images, CCDs, traps, windows", "why_tests_cant": "aliasing and histories of any length", "anchors": ["arcticpy/main.py:add_cti", "arcticpy/roe.py:ROEChargeInjection", "arcticpy/main_utils.pyx:cy_clock_charge_in_one_direction"]}
{"id": "C61", "title": "Readout through traps with lifetime distributions follows the time since each depth was filled", "statement": "add_cti with any mix of TrapInstantCapture and TrapLifetimeContinuum groups returns exactly the image of a reference simulation without watermarks, which keeps for every pixel and phase the occupancy by depth of the former traps and the time since the traps at each depth were filled of the latter, whose occupancy is fill_fraction_from_time_elapsed of that time; and it raises TypeError exactly when in the reference a cloud holds fewer electrons than there are vacant traps of a continuum group inside it.", "quantifier": "every image, standard readout with any number of phases and steps, groups, species, lifetime distributions, express value, windows, offsets, both directions", "why_tests_cant": "equality of two state machines over all runs, including the runs that end in an exception", "anchors": ["arcticpy/trap_managers.py:TrapManagerTrackTime", "arcticpy/trap_managers.py:AllTrapManager", "arcticpy/traps.py:TrapLifetimeContinuumAbstract", "arcticpy/main_utils.pyx:cy_clock_charge_in_one_direction", "arcticpy/main.py:add_cti"]}
{"id": "C62", "title": "Readout through traps with finite capture time follows the rate equations at each depth, if the traps are few", "statement": "add_cti with any mix of Trap (capture_timescale zero or positive), TrapInstantCapture and TrapLifetimeContinuum groups returns exactly the image of a reference simulation without watermarks, which applies the rate equations of capture and release to the occupancy at each depth inside the cloud and exponential decay outside it, and raises what it raises; nothing is accessed out of bounds, and nothing is raised unless a group with a lifetime distribution has more traps in a phase than slow groups may have. Required: a non-negative image, no notch, well_fill_power at least 1, and for each slow group and phase no more than full_well_depth / well_fill_power traps (outside this range see C17, C18, C19 and C51, where the code loses track of the traps or overruns its arrays).", "quantifier": "every non-negative image, standard readout with any number of phases and steps, groups, species, timescales, express value, windows, offsets, both directions", "why_tests_cant": "equality of two state machines over all runs; an array overrun only happens for particular histories of clouds", "anchors": ["arcticpy/trap_managers.py:TrapManager", "arcticpy/trap_managers.py:AllTrapManager", "arcticpy/traps.py:Trap", "arcticpy/main_utils.pyx:cy_clock_charge_in_one_direction", "arcticpy/main.py:add_cti"]}
{"id": "C63", "title": "Few traps of any kind and in any number of groups neither create charge nor raise", "statement": "With full readout (express=0), a non-negative image, no notch, well_fill_power at least 1 and, in each phase, no more traps of all groups together than full_well_depth / well_fill_power, every column's electrons are exactly those in the image returned, those left in the padding and those still in traps at the end of the passes, for any number of groups of Trap, TrapInstantCapture and TrapLifetimeContinuum in any mix. If traps are emptied for first transfers, add_cti completes without exception, returns no negative pixel and never more electrons than it was given. (False outside this range: see C32, and C31 for trap states carried between passes.)", "quantifier": "every non-negative image, standard readout with any number of phases and steps, groups, species, timescales, windows, offsets, both directions", "why_tests_cant": "conservation has to hold for every history of clouds and trap states; several groups draw on the same cloud independently, so a shortage appears only for particular combinations", "anchors": ["arcticpy/main_utils.pyx:cy_clock_charge_in_one_direction", "arcticpy/trap_managers.py:TrapManager", "arcticpy/trap_managers.py:TrapManagerInstantCapture", "arcticpy/trap_managers.py:TrapManagerTrackTime", "arcticpy/main.py:add_cti"]}
{"id": "C64", "title": "The result does not depend on the unit of charge", "statement": "If image, full_well_depth, well_notch_depth, bloom levels and trap densities are all multiplied by the same positive factor, add_cti and remove_cti return the same result multiplied by that factor, raise the same exception where they raised one, and leave the readout objects in the same state. No constant in the code has a hidden unit of electrons.", "quantifier": "every image (also negative pixels), any CCD, readout mode (standard, charge injection, trap pumping), groups of all three kinds of traps, windows, express, offsets, number of iterations, positive factors", "why_tests_cant": "a threshold or tolerance with a hidden unit only shows at signal levels a test does not sample", "anchors": ["arcticpy/main.py:add_cti", "arcticpy/main.py:remove_cti", "arcticpy/main_utils.pyx:cy_clock_charge_in_one_direction", "arcticpy/ccd.py:CCD", "arcticpy/trap_managers.py:TrapManager"]}
{"id": "C65", "title": "The result does not depend on the unit of time", "statement": "If all dwell times and all release and capture timescales are multiplied by the same positive factor, add_cti and remove_cti return the same image, for Trap and TrapInstantCapture objects in any readout mode, if a readout object is given (the default one has a fixed dwell time). For groups with lifetime distributions (log-normal ones with their medians multiplied, arbitrary ones as densities per unit of time) add_cti with standard readout through a CCD without notches and with windows inside the image returns the same image.", "quantifier": "every image, number of phases and steps, traps, windows, express, offsets, both directions, positive factors", "why_tests_cant": "times enter through exponentials, interpolated tables and stored elapsed times; a mixture of units shows only for particular timescales", "anchors": ["arcticpy/main.py:add_cti", "arcticpy/main.py:remove_cti", "arcticpy/roe.py:ROE", "arcticpy/traps.py:TrapLogNormalLifetimeContinuum", "arcticpy/trap_managers.py:TrapManagerTrackTime"]}
{"id": "C66", "title": "A corner of the image can be processed alone", "statement": "With express=0, standard readout and instant-capture traps, add_cti(image)[:n, :m] equals add_cti(image[:n, :m]), and the same for remove_cti: pixels farther from the readout than those of interest need not be in the image or in the windows. In particular the size of the arrays allocated for the trap states has no influence on the result. (Not in general with the express approximation: for express=2 there is a counterexample, since the number of rows decides which transfers are treated together.)", "quantifier": "every image (also negative pixels), both directions or one, any number of phases, steps, species and groups, offsets, numbers of iterations, corner sizes", "why_tests_cant": "the row loop, the express matrix and the allocation of watermark arrays all depend on the image size; an allocation too small for some larger size or number of steps is only seen at that size", "anchors": ["arcticpy/main.py:add_cti", "arcticpy/main.py:remove_cti", "arcticpy/main_utils.pyx:cy_clock_charge_in_one_direction", "arcticpy/main_utils.pyx:max_n_transfers", "arcticpy/roe.py:ROE"]}
{"id": "C67", "title": "In double precision the compiled loops stay inside their arrays", "statement": "With np.float64 arithmetic (rounding, overflow, signed zeros, infinities, NaN; np.sum in any order), standard readout or charge injection with traps emptied at the start of every pass and between columns, and TrapInstantCapture or lifetime-distribution traps: clocking an image never reads or writes outside the pixel or watermark arrays, returns an image of the same size, and can fail only with IndexError, which is impossible in an arithmetic without NaN, or with the TypeError of C23 for lifetime distributions. The same holds for the whole call with the express matrix computed in double precision too, unless the readout object raises. A pixel that is not negative in the input is not negative in the output (here for all trap classes). (An IndexError does occur: a NaN pixel behind a pixel that filled traps.)", "quantifier": "every image of doubles, also with NaN and infinite pixels, every express matrix of doubles, number of phases and steps, groups, window, well-filling parameters, order of summation; also every other arithmetic in which 0 == 0, no positive number is == 0, adding 0 does not change a comparison and a difference is 0 only between equal numbers", "why_tests_cant": "the code is compiled without bounds checks and the number of watermarks depends on comparisons of rounded numbers; a run that writes outside an array usually does not show", "anchors": ["arcticpy/main_utils.pyx:cy_clock_charge_in_one_direction", "arcticpy/trap_managers_utils.pyx:cy_n_trapped_electrons_from_watermarks", "arcticpy/trap_managers.py:TrapManagerInstantCapture", "arcticpy/trap_managers.py:TrapManagerTrackTime", "arcticpy/ccd.py:CCDPhase"]}
{"id": "C68", "title": "Columns are independent and rows causal, bit for bit", "statement": "In double precision, and in any other arithmetic, for every trap class and readout mode: when traps are emptied between columns each column of the result is, bit for bit, the one obtained when that column is processed alone, and columns outside the window are unchanged. With a single clock phase, forced release and traps emptied at the start of every pass, rows up to R of the result depend only on rows up to R of the image. (False for several phases: low phases multiply the pixel behind by 0.0, so an infinite or NaN pixel behind the window turns the result into an IndexError; in arithmetics where products with zero are all the same the claim holds for any number of phases.)", "quantifier": "every image, also with NaN and infinite pixels, groups of traps of any class, windows, express matrices, well-filling functions, order of summation", "why_tests_cant": "tests compare with tolerances; equality of all bits over all images, including special values, needs a proof that no state or pixel of another column or later row enters the computation", "anchors": ["arcticpy/main_utils.pyx:cy_clock_charge_in_one_direction", "arcticpy/trap_managers.py:AllTrapManager", "arcticpy/roe.py:ROE"]}
{"id": "C69", "title": "Express matrices in double precision", "statement": "With np.float64 arithmetic, windows reaching up to N <= 2^25 transfers and no time window: the multipliers of the express matrix are finite and not negative, and for each pixel they add up to its number of transfers with an error of at most N^2/2^51. If express divides the number of transfers (one fewer when first transfers are kept apart), in particular for express=0, matrix and monitor matrix are exactly those of real arithmetic; with express_matrix_dtype=int they are too, also with a time window. (False in general: the same passes monitor the traps of the same pixels as in real arithmetic if no product k*(N/express) that should be an integer is rounded down, and before first transfers are inserted only then; with 31 rows and express=22 one is, and the multipliers of a whole row of the matrix go to another row.)", "quantifier": "every window, offset, express, with and without empty_traps_for_first_transfers", "why_tests_cant": "the tests use a handful of sizes where the rounding happens to be harmless; whether a product of rounded numbers falls below an integer depends on number theory of N and express", "anchors": ["arcticpy/roe.py:ROE", "arcticpy/roe.py:express_matrix_and_monitor_traps_matrix_from_pixels_and_express"]}
{"id": "C70", "title": "add_cti and remove_cti in double precision", "statement": "With np.float64 arithmetic throughout (readout, express matrix, both directions, all iterations), standard readout or charge injection with traps emptied before each pass and between columns, and traps without slow capture: add_cti and remove_cti return an image of the same size or raise a Python exception, and never read or write outside an array, whatever becomes of the numbers in the iterations. add_cti makes no pixel negative that was not (all traps and readouts). Pixels in no column of the first direction and no row of the second keep every bit in add_cti; in remove_cti finite ones do too, except that -0.0 becomes 0.0. When parallel trails are removed, each column comes out, bit for bit, as if it were alone in the image. (Pixels outside the windows are not all unchanged by remove_cti: infinite ones become NaN.)", "quantifier": "every image of doubles, every number of iterations, window, time window, express, offset, and order of summation", "why_tests_cant": "memory errors in the iterations depend on the values produced by earlier ones; the sign of zeros and infinite pixels outside the window are not in any test image", "anchors": ["arcticpy/main.py:add_cti", "arcticpy/main.py:remove_cti", "arcticpy/main_utils.pyx:cy_clock_charge_in_one_direction"]}
{"id": "C71", "title": "The order of traps and groups does not matter, the grouping does", "statement": "The groups of traps may be given in any order, and the traps of a group too as long as the first one has the same class: add_cti and remove_cti return the same image, or raise in both orders. (Which traps share a group does matter: a group's cloud includes only the electrons released by that group. The order within a group matters if its classes differ: the class of the first trap is used for all, so that behind a TrapInstantCapture the capture timescales of the others are ignored, and with the two exchanged fewer electrons are captured.)", "quantifier": "every image, trap list, readout, express, offset, window, number of iterations", "why_tests_cant": "no test gives several groups in two orders or mixes classes in a group; equality must hold for all images and orders", "anchors": ["arcticpy/trap_managers.py:AllTrapManager", "arcticpy/main_utils.pyx:cy_clock_charge_in_one_direction", "arcticpy/main.py:add_cti", "arcticpy/main.py:remove_cti"]}
{"id": "C72", "title": "Arrays in and out: no array of the caller is changed, and the element type decides what happens", "statement": "add_cti and remove_cti change no array of the caller, also if they raise, and return an array that shares no memory with one. With traps, add_cti returns float64 whatever the element type of the image (longdouble and complex images are rejected with ValueError); without traps, a copy. remove_cti keeps the element type of the image: for float64 it is the iteration of C36; for float32 each estimate is rounded to single precision while the differences are not; images of integers or booleans raise TypeError in the first iteration, although add_cti accepts them.", "quantifier": "every memory, image, element type, traps, readout, express, offset, window, number of iterations", "why_tests_cant": "the tests use float arrays and look only at the values returned; that no memory is shared holds for all calls only by looking at each write", "anchors": ["arcticpy/main.py:add_cti", "arcticpy/main.py:remove_cti", "arcticpy/main_utils.pyx:cy_clock_charge_in_one_direction"]}
{"id": "C73", "title": "Trap objects and saved trap states are copied where they have to be", "statement": "add_cti never changes the trap objects it is given: every manager works on copies, whose densities are those of the caller's traps times the fraction of traps in the phase, also if a trap object is listed several times. A saved trap state is independent of what happens to the traps afterwards: restore brings it back any number of times; clocking with managers changed in place gives the image of clocking with values. (Limits: assigning a wrong number of densities to n_traps_per_pixel raises UnboundLocalError instead of the ValueError that was meant; if one trap object is listed twice in a group, both species get the density assigned last.)", "quantifier": "every list of trap objects with repetitions, fractions per phase, sequence of operations on the managers, image, readout", "why_tests_cant": "the tests construct new traps for each call and never look at them afterwards; an alias between saved and current managers shows only for some orders of operations", "anchors": ["arcticpy/trap_managers.py:AllTrapManager", "arcticpy/trap_managers.py:n_traps_per_pixel", "arcticpy/main_utils.pyx:cy_clock_charge_in_one_direction"]}
{"id": "C74", "title": "A bright pixel leaves the trail of the release law", "statement": "add_cti on an image with one bright pixel per column, all other pixels staying within the notch of the CCD (where no traps are met): the pixels in front of the bright one are unchanged, the bright one loses in each of its transfers what empty traps capture from a cloud of its volume, and the (j+1)-th pixel behind it gains what these traps release in the (j+1)-th dwell time after each capture: Trap and TrapInstantCapture exponentially with the release timescale, lifetime continua by their own law. The trail is to the loss as this release is to the capture, and the whole loss is found in the trail, except for what traps hold at the end. The same along rows for serial clocking. (Limit: without a notch the pixels behind lose part of what they gain to the same traps.)", "quantifier": "every image, offset, dwell time, notch, full well, power, any groups of the three trap classes; single-phase readout, express=0", "why_tests_cant": "tests compare single images with stored numbers; that the shape of the trail is the release law, for all trap classes and any number of transfers, is a statement about all of them", "anchors": ["arcticpy/main.py:add_cti", "arcticpy/main_utils.pyx:cy_clock_charge_in_one_direction", "arcticpy/trap_managers.py:n_electrons_released_and_captured"]}
{"id": "C75", "title": "Negative window indices", "statement": "A window with negative indices never makes add_cti access memory outside the image. (False: negative numbers are counted from the end, as in Python and numpy, when the columns of the express matrix are selected, but not when the image is accessed. For standard readout a row window with negative entries only raises: ValueError, ZeroDivisionError or IndexError, depending on the offset. A row window that reaches below zero, such as range(-2, 3), a negative column, and trap pumping of a pixel with a negative index read and write outside the image, for any image and traps.)", "quantifier": "every list of integers as row and column window, time window, express, offset, dwell times, fractions of traps per phase, image", "why_tests_cant": "an access outside a buffer need not crash or change a compared number; the tests use only windows of natural numbers", "anchors": ["arcticpy/main.py:add_cti", "arcticpy/main_utils.pyx:cy_clock_charge_in_one_direction", "arcticpy/roe.py:express_matrix_and_monitor_traps_matrix_from_pixels_and_express"]}
{"id": "C76", "title": "Time windows of any numbers", "statement": "A time window whose first entry is a >= 0 and whose last entry is b, integers or not, gives each pixel those of its row + offset + 1 transfers that lie between the times a and b + 1. Windows from a to b and from b + 1 to c add up, entry by entry, to the window from a to c. (False: windows that share their end, [a, b] and [b, c], make the transfer between b and b + 1 twice; a window that starts at a negative time makes |a| transfers more than there are; windows given as fractions of the readout, as the project's own test has them, [0, s] and [s, 1], make at most three transfers in total however large the image, and for serial clocking process row 0 twice, row 1 once and all other rows never.)", "quantifier": "every pair of numbers, window of rows, express, offset, dtype; every image for the serial part", "why_tests_cant": "the test that splits the readout by fractions has its only bright pixel in row 1 and accepts any difference below 2 electrons", "anchors": ["arcticpy/main.py:add_cti", "arcticpy/roe.py:restrict_time_span_of_express_matrix"]}
{"id": "C77", "title": "The readout objects after a call that raises", "statement": "A call of add_cti that raises leaves every readout object as it was, so that a program may catch the exception and call add_cti again: no later result depends on earlier calls, whether they returned or raised. (False for charge injection without n_pixel_transfers: the number of the first window is stored before anything can go wrong. A call with a wrong window that raises IndexError fixes the number of transfers of all later calls; a window such as [-1] stores a number that is not positive, after which every call with that object raises. Nothing else is ever changed, and only in objects given to the call.)", "quantifier": "every sequence of calls, with any images, windows, CCDs, traps and readout objects, shared or not", "why_tests_cant": "the tests never use an object again after an exception", "anchors": ["arcticpy/main.py:add_cti", "arcticpy/roe.py:express_matrix_and_monitor_traps_matrix_from_pixels_and_express"]}
{"id": "C78", "title": "Trap pumping makes dipoles whose direction tells the phase of the traps", "statement": "Pumping a pixel changes only that pixel and its two neighbours in the column. If all traps are in phases of the first half of the pixel, only the pixel and the next one change; if they are in the second half, only the pixel and the previous one. With traps anywhere but in the first phase, no other pixel loses electrons, and (express = 0, one group of traps) the pixel pumped does not gain any: the neighbour is the bright and the pixel the faint half of the dipole. (False for traps in the first phase, which also capture from the next pixel; with express or several groups the pixel pumped may gain: 5 electrons become 28 when 10 pumps are done in one pass.)", "quantifier": "every image, CCD, number of phases, dwell times, number of pumps and (except where noted) express and groups of instant-capture traps; the pixels touched for all traps", "why_tests_cant": "the test of trap pumping compares one image with numbers computed before", "anchors": ["arcticpy/roe.py:ROETrapPumping", "arcticpy/roe.py:_generate_clock_sequence", "arcticpy/main.py:add_cti"]}
{"id": "C79", "title": "Rounding keeps the watermarks in order for instant capture", "statement": "In double precision, for traps with instant capture, of the standard class or of the one that stores elapsed times, and after any number t of transfers (up to 2^22, and within the array), with clouds between zero and the full volume: the volumes are finite, a block of at most t positive ones followed by zeros, and their sum exceeds the full volume by at most 3 t^2 / 2^48. So rounding never hides a watermark in use behind a zero and never makes a volume negative. (False for slow capture: of the two parts of a split watermark the upper one is always positive, but the lower one can round to zero or below. Then the watermarks above it are lost for release and capture. The column 98, 2, 3, 3, 20 ends with more than 45 electrons instead of less than 18.) (False for elapsed times with the order of addition of np.sum for eight and more numbers: after the pixels 91, 85, 68, 40, 21, 12, 4 and 90.818 in an array with ten rows the eighth volume is negative.)", "quantifier": "every history of transfers, with any densities, probabilities, distributions of lifetimes, pixels and well fillings, and positive dwell times; sums from left to right", "why_tests_cant": "the tests for slow capture use few pixels with different values, and nobody looks at the watermarks after a long history", "anchors": ["arcticpy/trap_managers.py:update_watermark_volumes_for_cloud_below_highest", "arcticpy/trap_managers.py:n_electrons_released_and_captured", "arcticpy/trap_managers_utils.pyx:cy_value_in_cumsum"]}
{"id": "C80", "title": "What the capture time of a trap does", "statement": "The fractions of vacant and of filled traps inside a cloud that are filled after a dwell time get smaller, strictly, when the capture time gets longer. They are 1 for capture time 0, differ from 1 by at most c/tau + c/t for a capture time c, and approach those of traps outside a cloud for long capture times. From the same state of the traps, one transfer takes fewer or as many electrons from the cloud when the capture time is longer, and leaves fewer or as many traps filled at every depth. Traps with capture time 0 take fewer or as many electrons as traps of the class for instant capture. The difference is at most the number of traps between the heights of two clouds, without and with the electrons released from below the height of the cloud, and zero if the traps below that height are empty. (False: that the two classes agree. For two pixels with 50 electrons they give 45, 50 and 45, 49.525. False for images: that traps lose less charge when they capture more slowly. The second of two equal pixels loses more.)", "quantifier": "all capture, release and dwell times; all states of the traps with levels of positive volume, all clouds, any number of species and any monotone well filling with few traps", "why_tests_cant": "the tests compare the two classes with a tolerance, for a few clouds and traps", "anchors": ["arcticpy/trap_managers.py:fill_probabilities_from_dwell_time", "arcticpy/trap_managers.py:TrapManagerInstantCapture", "arcticpy/trap_managers.py:n_electrons_released_and_captured", "arcticpy/traps.py:capture_timescale"]}
{"id": "C81", "title": "Errors of the trap parameters", "statement": "Two descriptions of the traps whose densities and release rates differ by a fraction e at most give images that differ by little: with l at least twice the numbers of traps per pixel times power / full well depth and q = (1-lp)^-(rows+offset) (1-ls)^-(columns+offset) - 1, add_cti returns images whose pixels differ by at most 20 e q times the total charge, summed over all pixels. If the image was made with one description and is corrected with the other, the result of remove_cti after n iterations differs from the true image by at most q^(n+1) + 20 e q/(1-q) times the total charge, provided that every pixel of the true image has that much charge for n = 0. The same holds for parallel clocking with a well filling power below 1 and a background, so for the HST preset of a wrong date. The second part of the error does remain: for one pixel of T electrons in a linear well the result is T (1-a')/(1-a) (1-a^(n+1)) where a' and a are the true and the assumed numbers of traps per electron of the full well.", "quantifier": "all images, numbers of iterations, trap groups, densities, release times, dwell times, offsets and wells for which q < 1", "why_tests_cant": "the tests use the same traps for adding and removing CTI", "anchors": ["arcticpy/main.py:remove_cti", "arcticpy/main.py:add_cti", "arcticpy/main.py:model_for_HST_ACS", "arcticpy/traps.py:density", "arcticpy/traps.py:release_timescale"]}
{"id": "C82", "title": "Accuracy of express", "statement": "Instant-capture traps, one step per pixel, any express value for which the code does not raise (all except rows - 1, C02). With l twice the number of traps per pixel times power / full well depth, s = l/(1-l) and N = rows + offset, suppose 3 N s <= 1. Then the images that add_cti returns with this express value and with express = 0 differ, summed over all pixels, by at most s/2 w + 10 (N s)^2 times the total charge per direction, where w = ceil(N / express) (express = 0 and values above N count as N), less one if the multipliers are whole numbers (2 and 3 times these numbers for both directions together). So the error is in proportion to the number of transfers that a computed pass stands for, apart from second-order terms. remove_cti with express values, applied to an image made without, approaches the true image up to E/(1-q-E) times its charge where E is that error and q the charge that the traps displace. The first result holds for parallel clocking with a power below 1 and a background too, so for the HST preset.", "quantifier": "all images without negative pixels, express values, offsets, trap groups, release times, dwell times and wells with 3 N s <= 1", "why_tests_cant": "the tests compare a few express values on one image with a loose tolerance", "anchors": ["arcticpy/roe.py:express_matrix_and_monitor_traps_matrix_from_pixels_and_express", "arcticpy/main.py:add_cti", "arcticpy/main.py:remove_cti", "arcticpy/main.py:model_for_HST_ACS"]}
{"id": "C83", "title": "Charge injection repeats one pass", "statement": "Instant-capture traps, one step per pixel, ROEChargeInjection with n_pixel_transfers = n > 0, empty traps at the start of a pass, express = 0. add_cti puts every column through one and the same pass min(n, rows + offset) times: in a pass the charge of the rows, one after the other, meets traps that were empty before. Hence (1) a transfers followed by b transfers give the image of a + b transfers (a + b <= rows + offset). (2) For n <= rows + offset the image is that of the standard readout of rows that start n - 1 pixels from the register, stopped after n transfers (offset = n - 1, time window 0..n-1). With a power of at least 1, few enough traps (number times power <= full well depth) and no negative pixels: (3) the first row z becomes the n-fold iterate of z - N f(z), N the number of traps per pixel, f the filled fraction of the well; for power 1 below saturation the fraction (1 - N / full well depth)^n is left. (4) Columns that do not get fainter with the row number come out as such, so the first row of a flat block ends up faintest. (5) With any express value the image differs from that of express = 0 by at most 2 sigma^2 of the charge, sigma the fraction that all transfers together cost at most; there is no first-order error, unlike for the standard readout (C82). (6) remove_cti approaches the true image with a factor q = (1-l)^-min(n, rows + offset) - 1 per iteration, and the object is unchanged.", "quantifier": "all images, numbers of transfers, offsets, trap groups, release times, dwell times and wells meeting the conditions", "why_tests_cant": "the tests compare a charge-injection image with one number per trap model", "anchors": ["arcticpy/roe.py:ROEChargeInjection", "arcticpy/roe.py:n_pixel_transfers", "arcticpy/main.py:add_cti", "arcticpy/main.py:remove_cti"]}
{"id": "C84", "title": "A pixel changes by at most one trap-full per transfer", "statement": "Traps that capture at once (both classes), empty traps at the start of a pass, forced release, windows without repeated entries. Let N be the number of traps per pixel times the sum of the phase fractions, and S the number of clocking steps per pixel. One direction with the standard readout changes a pixel in row r that is not negative by at most S N (r + offset + 1), whatever the express value, the filling function, the release times and the brightness of this and of all other pixels; with charge injection of n transfers by at most S N n. add_cti with both directions changes a pixel (r, c) that is not negative by at most the sum of both numbers, and does not make it negative. remove_cti with one iteration changes it by at most this number, and with any number of iterations too if this pixel of the given image holds at least that much, whether or not the iterations converge. Other pixels may be negative. The number is attained. (False for negative pixels, which add_cti may set to 0 outright.)", "quantifier": "all images, express values, offsets, windows, trap groups, release and dwell times, filling functions and numbers of iterations meeting the conditions", "why_tests_cant": "a bound on the change of every pixel for every scene cannot be sampled", "anchors": ["arcticpy/main.py:add_cti", "arcticpy/main.py:remove_cti", "arcticpy/main.py:_clock_charge_in_one_direction", "arcticpy/roe.py:ROEChargeInjection", "arcticpy/trap_managers.py:TrapManagerInstantCapture"]}
{"id": "C85", "title": "Traps only delay charge", "statement": "express = 0, empty traps at the start of a pass, forced release, windows in increasing order, no negative pixels; either one group of instant-capture traps with densities as high as you like, or few traps of any kinds in any number of groups (C63). In the image that add_cti returns, the first R rows and C columns together never hold more electrons than in the image given, for all R and C. More generally, counted with any non-negative weights that do not rise with the row nor with the column, no image gains. So the sum of row number times charge never falls, if the charge left in traps counts as lying right behind the last row: centroids move away from the register. remove_cti moves charge towards it in the same sense: after one iteration, and after any number if every pixel holds at least what it can change by (C84), the image counted with such weights holds at least as much as the image given. (False for express > 0: the total can rise.)", "quantifier": "all images, offsets, windows, trap groups, release and dwell times, weights and numbers of iterations meeting the conditions", "why_tests_cant": "the tests compare single images with stored ones; no finite set of images shows that no image gains in a corner", "anchors": ["arcticpy/main.py:add_cti", "arcticpy/main.py:remove_cti", "arcticpy/main.py:_clock_charge_in_one_direction"]}
{"id": "C86", "title": "Traps of density zero make no difference", "statement": "Adding traps of density zero to the groups, anywhere but with another class in front, and adding whole groups of density zero changes neither the image nor the readout objects nor the exception of add_cti and remove_cti, whatever the timescales and classes of the added traps: for groups headed by TrapInstantCapture or a lifetime continuum with any densities, and for groups of any class with few slow traps (C62) and a non-negative image. The first trap of a group decides the class of all, so TrapInstantCapture(density=0) in front turns the traps behind it into instantly capturing ones. (False for many slow traps: with more traps than electrons a species of density zero can change the image.)", "quantifier": "all images, trap groups, added traps, positive release times, dwell times, express values, offsets, windows and numbers of iterations meeting the conditions", "why_tests_cant": "the watermarks that are stored do depend on the added species (they are merged only where all species are filled), so agreement in examples says little about other histories", "anchors": ["arcticpy/main.py:add_cti", "arcticpy/main.py:remove_cti", "arcticpy/trap_managers.py:AllTrapManager"]}
{"id": "C87", "title": "Settings that make no difference", "statement": "surface of any trap and well_bloom_level of any CCD have no effect on add_cti and remove_cti: a surface trap is reached by the same electrons as a bulk trap, contrary to the documentation. With a single dwell time force_release_away_from_readout has no effect; with at most one column in the window of a direction empty_traps_between_columns has none; use_integer_express_matrix has none for express=0 and whenever the number of transfers (or pumps) made in the express passes is a multiple of their number. In all these cases the image, or the exception raised, is the same. Otherwise the three settings of the readout do matter.", "quantifier": "all images, CCDs, traps of all classes and nestings, readout classes, express values, offsets, windows, time windows and numbers of iterations", "why_tests_cant": "absence of an effect is a statement about all inputs; the flags are stored, copied and passed on, and surface has code of its own that is never reached", "anchors": ["arcticpy/main.py:add_cti", "arcticpy/main.py:remove_cti", "arcticpy/ccd.py:CCD", "arcticpy/traps.py:Trap", "arcticpy/roe.py:ROE"]}
{"id": "C88", "title": "Charge within the notch is left alone", "statement": "If no pixel of an image is negative or holds more electrons than the notch depth of any phase of the CCD, add_cti and remove_cti, when they return, give back the image itself, whatever the traps (of all classes, any densities, alone or in groups), readouts, express values, offsets, windows and time windows. (False for the charge in the notch of brighter pixels, although the documentation calls it immune to trapping: if the traps reached by the charge above the notch outnumber all electrons of the pixel, all are captured.)", "quantifier": "all images, CCDs, traps of all classes and nestings, readout classes, express values, offsets, windows, time windows and numbers of iterations", "why_tests_cant": "a cloud within the notch does change the stored watermarks (it marks a row of volume zero as filled), so that nothing comes of it for any later sequence of clouds has to be proved", "anchors": ["arcticpy/ccd.py:CCD", "arcticpy/main.py:add_cti", "arcticpy/main.py:remove_cti", "arcticpy/trap_managers.py:TrapManager"]}
{"id": "C89", "title": "Charge above the full well passes through", "statement": "Traps that capture at once (both classes), empty traps at the start of a pass, forced release, windows without repeated entries. Let L be a number of electrons from which on the cloud fills the whole pixel in every phase, and not smaller than the number of traps per pixel. If two images differ only in pixels that hold, in both, at least L plus what the traps can take from the pixel on its way (C84), then add_cti with one or both directions returns results that differ by exactly the same: additional electrons in such a pixel arrive in this pixel, all of them, and no other pixel changes. The same holds for charge injection, and for remove_cti with any number of iterations if the pixels hold L plus twice that number. For the HST preset L is the full well depth of 84700 electrons. (False without the margin: a cloud that fills the pixel at first need not do so after the first transfers.)", "quantifier": "all pairs of images, express values, offsets, windows, trap groups, release and dwell times, filling functions and numbers of iterations meeting the conditions", "why_tests_cant": "that the whole state of the traps, not only the pixel looked at, is independent of the additional electrons has to hold for all scenes", "anchors": ["arcticpy/main.py:add_cti", "arcticpy/main.py:remove_cti", "arcticpy/ccd.py:CCD", "arcticpy/trap_managers.py:TrapManagerInstantCapture"]}
{"id": "C90", "title": "A saturated pixel shields what lies behind it", "statement": "Instant-capture traps, one phase and one step per transfer, empty traps at the start of a pass, forced release, an increasing row window. Let L be a number of electrons from which on the cloud fills the whole pixel, and not smaller than the number of traps per pixel. If two images agree in the rows behind row r0 and row r0 holds, in both, at least L plus what the traps can take from it on its way (C84), then the results agree in the rows behind r0, whatever the rows in front of r0 contain and whatever r0 itself contains above that level: for one column of one direction (standard readout and charge injection, any express value, offset and window), for add_cti with parallel clocking and possibly serial clocking of any kind afterwards if the whole row r0 is saturated, and for remove_cti with any number of iterations if the row holds L plus twice that number. For the HST preset L is the full well depth of 84700 electrons. (False without the margin; false with several phases, where low phases release charge of the row in front into the row behind; false for traps with a capture time, which a saturated pixel does not fill in one transfer.)", "quantifier": "all pairs of images, rows, express values, offsets, windows, trap groups, release and dwell times, filling functions and numbers of iterations meeting the conditions", "why_tests_cant": "that nothing of the past survives in the traps has to hold for all scenes in front of the saturated row; the watermarks, not only the trapped charge, have to be the same", "anchors": ["arcticpy/main.py:add_cti", "arcticpy/main.py:remove_cti", "arcticpy/roe.py:ROE.express_matrix_and_monitor_traps_matrix_from_pixels_and_express", "arcticpy/trap_managers.py:TrapManagerInstantCapture"]}
{"id": "C91", "title": "CTI does not drive images apart", "statement": "add_cti with instant-capture traps of Python objects, one phase, express = 0, all rows and columns. (a) Both directions, well_fill_power at least 1 and at most full_well_depth / well_fill_power traps per pixel: for any two images of one shape, with any pixels, the sum over all pixels of the absolute differences of the two results is at most that of the two images; if one image is nowhere fainter than the other, so is its result, and the difference of the total charges does not grow. (b) Parallel clocking or both directions, well_fill_power at most 1: the same sum does not grow for any two images with a background that keeps every pixel above b electrons during the readout, if the traps per pixel times the volume per electron of a cloud of b electrons is at most 1. In particular parallel clocking with the HST preset. (False with more traps: 90 traps in a well of 100 electrons and power 3 take pixels 10 electrons apart to more than 14 electrons apart. False with express = 1, where one computed transfer stands for several.)", "quantifier": "all pairs of images, trap densities and release times in any number of groups, offsets, dwell times, well depths, powers and backgrounds meeting the conditions", "why_tests_cant": "a bound on pairs of images: it needs order preservation and conservation of charge in every transfer, including the charge left in the traps", "anchors": ["arcticpy/main.py:add_cti", "arcticpy/main_utils.pyx:cy_clock_charge_in_one_direction", "arcticpy/ccd.py:well_filling_function", "arcticpy/trap_managers.py:n_electrons_released_and_captured"]}
{"id": "C92", "title": "CTI can be undone: remove_cti finds the one image that add_cti turns into the given one", "statement": "Instant-capture traps of Python objects, one phase, express = 0, all rows and columns. Both directions with well_fill_power at least 1: let l be twice the number of traps per pixel times power / full_well_depth and q = (1-l_p)^-(rows+offset_p) (1-l_s)^-(columns+offset_s) - 1 < 1. (a) For every image in which every pixel holds at least one electron per trap and transfer there is exactly one image without negative pixels from which add_cti makes it, and after n iterations remove_cti returns, without raising, an image that differs from it by at most q^(n+1)/(1-q) times the total charge, summed over all pixels. (b) add_cti brings images without negative pixels no closer together than 1-q times their distance; remove_cti drives images at most 1 + q + ... + q^n times as far apart as they were. The same for well_fill_power at most 1 and a background, in parallel clocking and in both directions, and for the HST preset. (False without the condition on the pixels: remove_cti makes the empty pixel behind a bright one negative.)", "quantifier": "all images and pairs of images, numbers of iterations, trap densities and release times in any number of groups, offsets, dwell times, well depths, powers and backgrounds meeting the conditions", "why_tests_cant": "existence and uniqueness of the image before CTI, and a limit: it is a contraction argument over all images; C58 only covers images that are known to be results of add_cti", "anchors": ["arcticpy/main.py:remove_cti", "arcticpy/main.py:add_cti", "arcticpy/main.py:model_for_HST_ACS", "arcticpy/main_utils.pyx:cy_clock_charge_in_one_direction"]}
{"id": "C93", "title": "Rounding errors of a whole readout are small", "statement": "add_cti in IEEE double precision against add_cti in real numbers, both with instant-capture traps, one phase, express = 0, all rows and columns, traps emptied between columns, np.sum adding in any order. If the well filling and the fraction of electrons kept during a dwell time are computed to within phi and kappa, and all pixels stay between a lower and an upper bound during the readout, then neither version raises and the differences of all pixels of the result add up to at most columns * E_parallel + rows * E_serial, where E = (rows + offset) * rows * (error of a transfer) / (1 - 2 traps * slope) and the error of a transfer is an explicit expression in 2^-48, the numbers of transfers, species and traps, the size of clouds, phi and kappa. It covers well_fill_power at least 1, and at most 1 for clouds above a background. For at most 2048 transfers, three groups of 16 traps, a full well of 84700 electrons with power 1 and pixels between 1 and 160000 electrons, the errors of all pixels of a column add up to at most a quarter of an electron. The pairwise summation of numpy is one such order: it adds every number once, and for numbers with absolute values up to a total of eight its error is at most 2^-48 for every number.", "quantifier": "all images of doubles within the bounds, numbers of rows and columns, offsets, integer and float dtype, orders of addition in np.sum, groups and species, densities, fractions kept, filling laws meeting the conditions", "why_tests_cant": "an error bound for all images: rounding errors of millions of transfers, with decisions (which watermarks a cloud covers) that differ between the two arithmetics; a test only sees the errors of its own images", "anchors": ["arcticpy/main.py:add_cti", "arcticpy/main_utils.pyx:cy_clock_charge_in_one_direction", "arcticpy/trap_managers.py:n_electrons_released_and_captured", "arcticpy/ccd.py:well_filling_function"]}
{"id": "C94", "title": "Rounding errors do not pile up in remove_cti", "statement": "remove_cti in IEEE double precision, with the models of C93 (instant-capture traps, one phase, express = 0, all rows and columns, np.sum adding in any order). Let q be the slope of the change made by add_cti, q = (1 / (1 - 2 traps_p slope_p))^(rows + offset) * (1 / (1 - 2 traps_s slope_s))^(columns + serial offset) - 1, E the bound of C93 for one add_cti, e = E + rows * columns * 2 * P * 2^-48 with P the largest cloud. If every pixel of the image is at least what CTI can add to it, plus e, above the lower bound (and as much below the upper bound), then for every number n of iterations remove_cti in doubles and in real numbers raise no exception, all pixels of the double result stay between the bounds, and the differences of all pixels add up to at most (1 + q + ... + q^(n-1)) * e. If q < 1 there is an image 'truth' for which add_cti in real numbers gives exactly the input, and the result differs from it by at most q^(n+1) / (1 - q) * (total charge) + e / (1 - q) in total: the error does not grow with the number of iterations. For at most 128 transfers per direction, three groups of 16 traps, full well 84700, power 1 and pixels between 12300 and 150000 electrons: (2/5)^n * (total charge) + 1/2 electron.", "quantifier": "all images of doubles within the bounds, numbers of iterations, rows and columns, offsets, integer and float dtype, orders of addition in np.sum, groups and species, densities, fractions kept, filling laws meeting the conditions", "why_tests_cant": "for every number of iterations and every image: a feedback loop in floating point could drift, leave the valid range or amplify errors only after many iterations or for rare images; the truth image exists only in exact arithmetic", "anchors": ["arcticpy/main.py:remove_cti", "arcticpy/main.py:add_cti", "arcticpy/main_utils.pyx:cy_clock_charge_in_one_direction", "arcticpy/ccd.py:well_filling_function"]}
{"id": "C95", "title": "Superposition: the changes made by several sets of traps add up, up to second order", "statement": "add_cti with a CCD, a ROE and groups of TrapInstantCapture, one phase, express = 0, all rows and columns. Let N be the number of transfers of the last row (rows + offset), and for a list of groups of traps let kappa be the number of traps per pixel times well_fill_power / full_well_depth (well_fill_power >= 1, no negative pixels), or, for well_fill_power <= 1 over a background, times the volume per electron of a cloud of b electrons that every pixel keeps. If N * (kappa_1 + kappa_2) <= 1/8, the image read with both lists of traps differs from the image to which the changes made by each list alone are added by at most 11 * (N kappa_1) * (N kappa_2) times the charge of the image, summed over all pixels. In the same way the changes made by parallel and by serial clocking add up: if N_p kappa_p <= 1/8 and N_s kappa_s <= 1/8, the image read through both registers differs from the image with both changes added by at most 8 * (N_p kappa_p) * (N_s kappa_s) times the charge. (False: the changes add up exactly. Two groups of ten traps each take 19 of 100 electrons alone and 36 together. False with many traps: not even the changes of one transfer add up when charge runs short.)", "quantifier": "all images without negative pixels (or over the background), rows, columns and offsets, lists of groups and species, densities, release times, dwell times, well depths and powers meeting the conditions", "why_tests_cant": "the bound holds for every image and every split of the traps into two lists, and its quadratic form in the two densities cannot be read off from samples", "anchors": ["arcticpy/main.py:add_cti", "arcticpy/main_utils.pyx:cy_clock_charge_in_one_direction", "arcticpy/trap_managers.py:n_electrons_released_and_captured"]}
{"id": "C96", "title": "Below saturation, brightness, well depth and trap density make up for each other", "statement": "add_cti with a CCD, a ROE and groups of TrapInstantCapture, one phase, express = 0, all rows and columns, parallel or both directions. If the image is multiplied by s > 0, full_well_depth is replaced by full' >= s * full_well_depth and the density of every species is multiplied by s * (full' / (s * full_well_depth))^well_fill_power, then the result is exactly s times the result for the original image and objects, provided that no pixel can reach the full well depth (pixel value plus all traps per pixel times the number of transfers plus one is at most the full well depth). The same holds for remove_cti and any number of iterations (with twice the number of transfers). In particular: (a) two models with depths full <= full' and (full'/full)^power times the traps cannot be told apart by images below saturation; (b) s <= 1 times the image with s^(1 - power) times the traps gives s times the result; (c) for well_fill_power = 1, add_cti of s times an image is s times add_cti of the image, with the same objects. (False above saturation: of 100 electrons in wells of depth 100 ten traps per pixel take 19 in two transfers, of 200 electrons only 20. False for other powers with the same traps: for the power two, ten traps take 10 of 100 but 2.5 of 50 electrons.)", "quantifier": "all images (also with negative pixels), factors s, rows, columns and offsets, groups and species, densities, release times, dwell times, depths and powers meeting the conditions, all numbers of iterations", "why_tests_cant": "an exact relation between two different calls with different objects, for every image and every choice of three real parameters", "anchors": ["arcticpy/main.py:add_cti", "arcticpy/main.py:remove_cti", "arcticpy/main_utils.pyx:cy_clock_charge_in_one_direction", "arcticpy/trap_managers.py:n_electrons_released_and_captured", "arcticpy/ccd.py:well_fill_power"]}
{"id": "C97", "title": "Double precision: every operation is correctly rounded", "statement": "The arithmetic on np.float64 values and C doubles behind the floating-point properties (C67, C69, C70, C79, C93, C94) is IEEE 754 binary64: the finite doubles are exactly the numbers m * 2^e with |m| < 2^53 and -1074 <= e <= 971; +, -, *, / and unary minus of finite doubles give the exact result rounded to the nearest double, of two nearest ones the one with the even significand, and infinity with the sign of the result from 2^1024 - 2^970 on; signs of products and quotients follow the rules for signs also for zeros and infinities, numbers that cancel give +0, and results too small for a double are zeros of the right sign; NaN comes from NaN, infinity minus infinity, zero times infinity, 0/0 and infinity/infinity only; comparisons are those of the values (-0 == 0), with infinities outside and every comparison with NaN false. Rounding is determined uniquely by these conditions.", "quantifier": "all rational numbers and all pairs of doubles, including zeros of both signs, subnormal numbers, infinities and NaN", "why_tests_cant": "2^128 pairs of doubles; the nearest double is a statement about all doubles", "anchors": ["arcticpy/main_utils.pyx:np.float64_t", "arcticpy/trap_managers_utils.pyx:np.float64_t"]}
{"id": "C98", "title": "Errors of the full well depth and the dwell time", "statement": "As long as no pixel reaches the full well depth (with all traps in all transfers to spare), the instrument enters only through density / full_well_depth^well_fill_power and dwell time / release timescale of each species: with the same values add_cti gives the same image. If these differ by a fraction eps at most between two descriptions (CCD, ROE and traps), then with q as in C81 the images of add_cti in both directions differ by at most 20 eps q times the charge of the image, and an image made with one description and corrected with the other by n iterations of remove_cti differs from the true image by at most q^(n+1) + 20 eps q / (1-q) times its charge; the same holds for parallel clocking with well_fill_power <= 1 and a background, as for the HST preset. (False: that the same ratios give the same image also when pixels fill the wells.)", "quantifier": "all images below saturation with the stated minimum charge, all depths, dwell times, densities and release times, all powers (C98_same), any number of rows, columns, groups, species, iterations, eps in [0, 1]", "why_tests_cant": "the bound holds for all images and all pairs of descriptions; a test compares single pairs", "anchors": ["arcticpy/ccd.py:full_well_depth", "arcticpy/roe.py:dwell_times", "arcticpy/main.py:remove_cti", "arcticpy/main.py:add_cti"]}
{"id": "C99", "title": "CTI added and removed with express can be undone", "statement": "Let lambda be twice the number of traps per pixel times power / full_well_depth in each direction, t the sum over both directions of (rows + offset) lambda / (1 - lambda), and q = exp(3 t) - 1 < 1. For any value of express in each direction (except one less than the number of rows, where the code fails) and integer or fractional multipliers, every image with at least one electron per trap and transfer in each pixel is the result of add_cti with this express for exactly one image without negative pixels, and the image that remove_cti with the same express returns after n iterations differs from that one by at most q^(n+1) / (1-q) times the total charge; remove_cti with express amplifies the difference of two images at most 1 + q + ... + q^n times. q does not depend on express. The same holds for parallel clocking with well_fill_power <= 1 and a background, as for the HST preset.", "quantifier": "all images with the stated minimum charge, all values of express, all densities, release times, depths and offsets with q < 1, any number of rows, columns, groups, species and iterations", "why_tests_cant": "existence and uniqueness of the corrected image, convergence for every number of iterations and independence of express are statements about all images; a test corrects single images", "anchors": ["arcticpy/main.py:remove_cti", "arcticpy/main.py:add_cti", "arcticpy/roe.py:express_matrix_and_monitor_traps_matrix_from_pixels_and_express"]}
{"id": "C100", "title": "Traps carried over from column to column", "statement": "With empty_traps_between_columns = False, what a call makes of a column depends on the columns before it only: a call for the columns A followed by B makes of A what the call for A alone makes of them, for any content of the other columns; and the first column comes out as with empty_traps_between_columns = True. As documented, 'each column moves through the same traps, which therefore preserve occupancy, allowing trails to extend onto the next column'. (False: every pixel starts a column with the electrons that the traps of the last pixel kept, so 80 electrons in one pixel of a 3 x 5 image become more than 80; and in a single row the watermarks run out after the second column, where the trail ends with more than four electrons still in the traps.)", "quantifier": "all images, CCDs, readout modes, trap groups, express values, offsets, windows of rows and columns; the false part: one image each", "why_tests_cant": "independence of later columns is a statement about all contents of all other columns; the upstream tests never look at several columns with traps carried over", "anchors": ["arcticpy/roe.py:empty_traps_between_columns", "arcticpy/main_utils.pyx:empty_traps_between_columns", "arcticpy/main_utils.pyx:cy_clock_charge_in_one_direction"]}
{"id": "C101", "title": "CTI from slow capture can be undone", "statement": "add_cti and remove_cti with groups of traps with a capture timescale (TrapManager) and of instant-capture traps, one phase without a notch, well_fill_power >= 1, express = 0, all rows and columns, parallel clocking or both directions. (a) For an image without negative pixels and at most full_well_depth / well_fill_power traps per pixel, each pixel of the result of add_cti is that of a reference simulation of its row after that of its column, in which every depth of the pixel has its own filled fraction, following the rate equations inside the cloud and decaying outside. (b) Let lambda be four times the traps per pixel times well_fill_power / full_well_depth and q = (1-lambda_p)^-(rows+offset_p) (1-lambda_s)^-(columns+offset_s) - 1 < 1. An image with at least one electron per trap and transfer in every pixel comes from exactly one image without negative pixels, and remove_cti with n iterations misses that image by at most q^(n+1)/(1-q) times the total charge, summed over all pixels. (c) add_cti shrinks the distance of two such images at most by the factor 1-q, and remove_cti increases it at most 1 + q + ... + q^n times. (The condition on the pixels is needed: remove_cti makes an empty pixel behind a bright one negative.)", "quantifier": "all images, numbers of rows and columns, offsets, trap groups, dwell times, full well depths, numbers of iterations", "why_tests_cant": "uniqueness of the original image and convergence of the iteration concern all images at once; the upstream tests of the capture timescale look at single transfers", "anchors": ["arcticpy/main.py:remove_cti", "arcticpy/main.py:add_cti", "arcticpy/trap_managers.py:n_electrons_released_and_captured"]}
{"id": "C102", "title": "Slow capture does not drive images apart", "statement": "add_cti with groups of traps with a capture timescale (TrapManager) and of instant-capture traps, one phase without a notch, well_fill_power >= 1, empty_traps_for_first_transfers = True, express = 0, all rows and columns, parallel clocking or both directions, at most half of full_well_depth / well_fill_power traps per pixel. For any two images of one shape without negative pixels, the sum of the absolute differences of the pixels after CTI has been added is at most that before. If one image is at least as bright as the other in every pixel, so it is afterwards, and by no more electrons in all. (False with empty_traps_for_first_transfers = False: one more electron in a pixel can make a difference of more than one electron.)", "quantifier": "all pairs of images, numbers of rows and columns, offsets, trap groups, dwell times, full well depths", "why_tests_cant": "order and distance concern all pairs of images; slow capture is not monotone in the charge for arbitrary trap fillings, only for those that the readout can reach, which needs an invariant over all transfers", "anchors": ["arcticpy/main.py:add_cti", "arcticpy/trap_managers.py:n_electrons_released_and_captured", "arcticpy/roe.py:empty_traps_for_first_transfers"]}
{"id": "C103", "title": "CTI from traps of all classes can be undone", "statement": "Groups of instant-capture traps, of traps with a capture timescale and of traps with a distribution of lifetimes (TrapManagerTrackTime), in any mixture, one phase without a notch, well_fill_power >= 1, empty_traps_for_first_transfers = True, express = 0, all rows and columns, parallel clocking or both directions. With at most full_well_depth / well_fill_power traps per pixel, add_cti raises no exception for images without negative pixels and returns what a reference simulation of each column and row gives. Let l be four times the number of traps per pixel times well_fill_power / full_well_depth, and q = (1-l_p)^-(rows+offset_p) (1-l_s)^-(columns+offset_s) - 1 < 1. Two images without negative pixels stay apart by at least 1-q times the sum of their absolute differences when CTI is added. If every pixel of an image holds at least one electron per trap and transfer, exactly one image without negative pixels gives it under add_cti; remove_cti with n iterations returns that image up to q^(n+1)/(1-q) times the total charge, and increases the distance of two such images at most 1+q+...+q^n times.", "quantifier": "all images, numbers of rows and columns, offsets, numbers of iterations, trap groups of all classes with any normalised distribution of lifetimes, dwell times, full well depths, well fill powers", "why_tests_cant": "existence, uniqueness and convergence concern all images; the state of these traps is the time since they were filled, for any law that is an integral over lifetimes", "anchors": ["arcticpy/main.py:remove_cti", "arcticpy/main.py:add_cti", "arcticpy/trap_managers.py:TrapManagerTrackTime", "arcticpy/traps.py:TrapLifetimeContinuumAbstract"]}
{"id": "C104", "title": "Traps of no class drive images apart", "statement": "add_cti with groups of instant-capture traps, of traps with a capture timescale and of traps with a distribution of lifetimes, in any mixture, one phase without a notch, well_fill_power >= 1, empty_traps_for_first_transfers = True, express = 0, all rows and columns, parallel clocking or both directions, at most half of full_well_depth / well_fill_power traps per pixel. For any two images of one shape without negative pixels, the sum of the absolute differences of the pixels after CTI has been added is at most that before. If one image is at least as bright as the other in every pixel, so it is afterwards, and by no more electrons in all.", "quantifier": "all pairs of images, numbers of rows and columns, offsets, trap groups of all classes with any normalised distribution of lifetimes, dwell times, full well depths, well fill powers", "why_tests_cant": "order and distance concern all pairs of images; for lifetime distributions they rest on release slowing down with the time since capture, for all laws", "anchors": ["arcticpy/main.py:add_cti", "arcticpy/trap_managers.py:TrapManagerTrackTime", "arcticpy/roe.py:empty_traps_for_first_transfers"]}
{"id": "C105", "title": "express with traps of all classes is accurate and can be undone", "statement": "add_cti with groups of instant-capture traps, of traps with a capture timescale and of traps with a distribution of lifetimes, in any mixture, one phase without a notch, well_fill_power >= 1, empty_traps_for_first_transfers = True, all rows and columns, both directions. With l four times the number of traps per pixel times well_fill_power / full_well_depth and s = l / (1 - l), let (rows + offset) s be at most 1/3 in each direction. For any image without negative pixels and any express except rows - 1, the result differs from that with express = 0 by at most 2 E_p + 3 E_s times the charge of the image, E being half the cost s of the transfers that one computed pass stands for plus ten times the square of the cost of all transfers. With t the sum of (rows + offset) s over both directions, 3 t <= 1 and q = exp(3 t) - 1 < 1, every image with at least one electron per trap and transfer in every pixel comes from exactly one image without negative pixels, remove_cti with the same express approaches it as q^(n+1) / (1 - q), and increases the distance between two images at most 1 + q + ... + q^n times. remove_cti with express of an image made with express = 0 approaches the true image up to E / (1 - q' - E) of its charge, q' being the charge that the traps displace.", "quantifier": "all images, numbers of rows and columns, offsets, express values but rows - 1, integer or real multipliers, trap groups of all classes with any normalised distribution of lifetimes, dwell times, full well depths, well fill powers, numbers of iterations", "why_tests_cant": "the bounds hold for all express values, all images and all release laws; a test compares a few images at a few express values", "anchors": ["arcticpy/main.py:add_cti", "arcticpy/main.py:remove_cti", "arcticpy/roe.py:express_matrix_and_monitor_traps_matrix_from_pixels_and_express", "arcticpy/trap_managers.py:TrapManagerTrackTime", "arcticpy/trap_managers.py:TrapManager"]}
{"id": "C106", "title": "Superposition for traps of all classes", "statement": "add_cti with groups of instant-capture traps, of traps with a capture timescale and of traps with a distribution of lifetimes, in any mixture, one phase without a notch, well_fill_power >= 1, empty_traps_for_first_transfers = True, express = 0, all rows and columns, no negative pixels. Let N be the number of transfers of the last row (rows + offset) and kappa the number of traps per pixel of a list of groups times well_fill_power / full_well_depth. If N (kappa_1 + kappa_2) <= 1/16, the image read with both lists of traps differs from the image to which the changes made by each list alone are added by at most 44 (N kappa_1)(N kappa_2) times the charge of the image, summed over all pixels. If N_p kappa_p <= 1/16 and N_s kappa_s <= 1/16, the image read through both registers differs from the image with the changes of parallel and of serial clocking added by at most 32 (N_p kappa_p)(N_s kappa_s) times the charge of the image.", "quantifier": "all images without negative pixels, numbers of rows and columns, offsets, pairs of lists of trap groups of all classes with any normalised distribution of lifetimes, dwell times, full well depths, well fill powers", "why_tests_cant": "the rest is of second order for all images and all release and capture laws; a test sees that it is small for some", "anchors": ["arcticpy/main.py:add_cti", "arcticpy/trap_managers.py:TrapManagerTrackTime", "arcticpy/trap_managers.py:n_electrons_released_and_captured"]}
{"id": "C107", "title": "A pixel changes by at most one trap-full per transfer, traps of all classes", "statement": "Groups of instant-capture traps, of traps with a capture timescale and of traps with a distribution of lifetimes, in any mixture, one phase without a notch, well_fill_power >= 1, number of traps per pixel times well_fill_power at most the full well depth, all rows and columns, empty traps at the start of a pass, no negative pixels. With T_p and T_s traps per pixel, add_cti changes pixel (r, c) by at most T_p (r + parallel offset + 1) + T_s (c + serial offset + 1), whatever the express values (other than rows - 1 and columns - 1, for which the code fails) and the brightness of this and of all other pixels. remove_cti with one iteration changes it by at most this number, and with any number of iterations too if every pixel of the given image holds at least this number for its place, whether or not the iterations converge.", "quantifier": "all images without negative pixels, express values, offsets, numbers of iterations, lists of trap groups of all classes with any normalised distribution of lifetimes, dwell times, full well depths and well fill powers meeting the conditions", "why_tests_cant": "a bound on the change of every pixel for every scene and every release and capture law cannot be sampled", "anchors": ["arcticpy/main.py:add_cti", "arcticpy/main.py:remove_cti", "arcticpy/trap_managers.py:TrapManagerTrackTime", "arcticpy/trap_managers.py:n_electrons_released_and_captured"]}
{"id": "C108", "title": "Charge above the full well passes through, traps of all classes", "statement": "Traps, readout and images as in C107. Let F be the larger of the full well depths of the two directions and B(r, c) the most that a pixel can change (C107). If two images differ only in pixels that hold, in both, at least F + B(r, c), then add_cti returns results that differ by exactly the same: additional electrons in such a pixel arrive in this pixel, all of them, and no other pixel changes, although traps with a capture timescale are not filled by a saturated pixel in one transfer. The same holds for remove_cti with any number of iterations if these pixels hold at least F + 2 B(r, c) and every pixel at least B(r, c).", "quantifier": "all pairs of images meeting the conditions, express values, offsets, numbers of iterations, lists of trap groups of all classes with any normalised distribution of lifetimes, dwell times, full well depths and well fill powers", "why_tests_cant": "that the whole state of the traps, not only the pixel looked at, is independent of the additional electrons has to hold for all scenes", "anchors": ["arcticpy/main.py:add_cti", "arcticpy/main.py:remove_cti", "arcticpy/ccd.py:full_well_depth", "arcticpy/trap_managers.py:n_electrons_released_and_captured"]}
{"id": "C109", "title": "Traps that are missing from the description, or too many in it", "statement": "Groups of traps of all classes in any mixture, one phase without a notch, well_fill_power >= 1, empty traps at the start of a pass, express = 0, all rows and columns, no negative pixels. Let a be 4 times the number of traps per pixel times well_fill_power / full_well_depth for the groups of a description, b the same number for further groups, N the number of transfers of the last row or column, e = (1 + a/(1-a) + b/(1-b))^N - (1 + a/(1-a))^N for each direction (about N b), E = 2 e_p + 3 e_s, and q = (1 - a_p - b_p)^(-N_p) (1 - a_s - b_s)^(-N_s) - 1 < 1. Then add_cti with and without the further groups gives images that differ by at most E times the charge of the image, summed over all pixels. An image that was made with the further groups and is corrected without them by n iterations of remove_cti differs from the true image by at most q^(n+1) + E/(1-q) times its charge, if every pixel of the true image holds at least q + E/(1-q) times its charge; and so does an image that was made without them and is corrected with them. The further groups may be absent in one of the directions.", "quantifier": "all images meeting the conditions, numbers of rows and columns, offsets, pairs of lists of trap groups of all classes with any normalised distribution of lifetimes, dwell times, full well depths, well fill powers, numbers of iterations", "why_tests_cant": "the tests use the same traps for adding and removing CTI; the bound is about all images and all traps that may have been overlooked", "anchors": ["arcticpy/main.py:add_cti", "arcticpy/main.py:remove_cti", "arcticpy/trap_managers.py:AllTrapManager"]}
{"id": "C110", "title": "Errors of the parameters of traps of all classes", "statement": "Groups of instant-capture traps, of traps with a capture timescale and of traps with a distribution of lifetimes in any number, each group of one class, one phase without a notch, well_fill_power >= 1, empty traps at the start of a pass, express = 0, all rows and columns, no negative pixels. Two descriptions with the same numbers of groups and species whose densities, release rates 1/release_timescale and capture rates 1/capture_timescale differ by a fraction eps <= 1 at most (a capture timescale of 0 being 0 in both) and whose distributions of lifetimes differ by at most eps in the integral of the absolute difference. Let lambda be at least 4 times the number of traps per pixel times well_fill_power / full_well_depth for both and q = (1-lambda_p)^-(rows+offset_p) (1-lambda_s)^-(columns+offset_s) - 1. Then add_cti with the two descriptions gives images that differ by at most 20 eps q times the charge of the image, summed over all pixels. If q < 1, an image made with one description and corrected with the other by n iterations of remove_cti differs from the true image by at most q^(n+1) + 20 eps q/(1-q) times its charge, if every pixel of the true image holds at least q + 20 eps q/(1-q) times its charge.", "quantifier": "all images meeting the conditions, numbers of rows and columns, offsets, pairs of lists of trap groups of all classes with any normalised distributions of lifetimes, dwell times, full well depths, well fill powers, errors eps, numbers of iterations", "why_tests_cant": "the tests use the same traps for adding and removing CTI; the bound is about all images, all traps and all errors of their parameters", "anchors": ["arcticpy/main.py:add_cti", "arcticpy/main.py:remove_cti", "arcticpy/trap_managers.py:AllTrapManager"]}
{"id": "C111", "title": "Traps of all classes in a well that fills fast, over a background", "statement": "Groups of instant-capture traps, of traps with a capture timescale and of traps with a distribution of lifetimes in any number, each group of one class, one phase without a notch, 0 < well_fill_power <= 1, empty traps at the start of a pass, express = 0, all rows and columns. Let k_p <= 1 be at least the number of traps per pixel times the filled fraction of the well per electron for a cloud of b electrons, and (1-k_p)^(rows+offset) l_p at least b and l_s; likewise for serial clocking, beginning with l_s electrons. Then add_cti does not fail on an image with at least l_p electrons in every pixel and returns exactly what the reference simulation of each column, then of each row, gives, transfer by transfer; at least (1-k_s)^(columns+offset) l_s electrons are left in every pixel. If 4 k < 1 and q = (1-4k_p)^-(rows+offset_p) (1-4k_s)^-(columns+offset_s) - 1 < 1, an image with l_p electrons and another one per trap and transfer in every pixel comes from exactly one image with at least l_p electrons in every pixel, remove_cti with n iterations differs from it by at most q^(n+1)/(1-q) times the charge, and remove_cti increases the distance of two such images at most 1+q+...+q^n times.", "quantifier": "all images meeting the conditions, numbers of rows and columns, offsets, lists of trap groups of all classes with any normalised distributions of lifetimes, dwell times, full well depths, well fill powers up to 1, backgrounds, numbers of iterations", "why_tests_cant": "well_fill_power < 1 has an infinite slope for empty wells, so what is true for well_fill_power >= 1 does not carry over; the statement is about all images over a background and all traps", "anchors": ["arcticpy/main.py:add_cti", "arcticpy/main.py:remove_cti", "arcticpy/trap_managers.py:AllTrapManager", "arcticpy/ccd.py:cloud_fractional_volume_from_n_electrons_and_phase"]}
{"id": "C112", "title": "Errors of the full well depth and of the dwell time, traps of all classes", "statement": "Groups of instant-capture traps, of traps with a capture timescale and of traps with a distribution of lifetimes, each group of one class, one phase without a notch, well_fill_power >= 1, empty traps at the start of a pass, express = 0, all rows and columns, pixels without negative charge of any size. Two descriptions of the detector have full well depths that differ by a fraction delta at most, trap densities per full well depth, release rates per dwell time and capture rates per dwell time that differ by a fraction eps <= 1 at most, and distributions of the lifetimes in units of the dwell time that differ by eps at most in the mean. Let lambda < 1 be at least 4 times the number of traps per pixel times well_fill_power / full_well_depth for both descriptions and q = (1-lambda_p)^-(rows+offset_p) (1-lambda_s)^-(columns+offset_s) - 1. Then add_cti with the two descriptions does not fail and the images differ by at most (20 eps + 2 delta) q times the charge. If q < 1 and every pixel has at least q + (20 eps + 2 delta) q/(1-q) times the charge of the image, remove_cti with one description after add_cti with the other differs after n iterations from the true image by at most q^(n+1) + (20 eps + 2 delta) q/(1-q) times its charge.", "quantifier": "all images meeting the conditions, numbers of rows and columns, offsets, lists of trap groups of all classes, full well depths, dwell times, well fill powers from 1 on, errors, numbers of iterations", "why_tests_cant": "the bound holds for all images, including saturated pixels at which the filling function has a kink, and for all errors of all parameters at once", "anchors": ["arcticpy/main.py:add_cti", "arcticpy/main.py:remove_cti", "arcticpy/ccd.py:cloud_fractional_volume_from_n_electrons_and_phase", "arcticpy/roe.py:dwell_times"]}
{"id": "C113", "title": "Another unit of time with distributions of lifetimes", "statement": "Groups of instant-capture traps, of traps with a capture timescale and of traps with a distribution of lifetimes, one phase without a notch, well_fill_power >= 1, at most as many traps per pixel as full_well_depth / well_fill_power, empty traps at the start of a pass, express = 0, all rows and columns, no negative pixels. If the dwell time, the release and capture timescales and the lifetimes (the density p(tau) becomes p(tau/mu)/mu) of one direction are multiplied by the same factor mu > 0, with another factor for the other direction, add_cti returns the same image. So does remove_cti after any number of iterations if there are less than a quarter of these traps and every pixel has at least one electron per trap and transfer. A log-normal distribution in another unit is the log-normal distribution with another median and the same sigma.", "quantifier": "all images meeting the conditions, numbers of rows and columns, offsets, lists of trap groups of all classes with any normalised distributions of lifetimes, dwell times, factors, numbers of iterations", "why_tests_cant": "equality for all factors and all distributions of lifetimes; the trap manager keeps times since the capture that are found from fill fractions, so units enter in two places", "anchors": ["arcticpy/main.py:add_cti", "arcticpy/main.py:remove_cti", "arcticpy/traps.py:TrapLogNormalLifetimeContinuum", "arcticpy/roe.py:dwell_times"]}
{"id": "C114", "title": "A distribution of lifetimes can be replaced by a few lifetimes", "statement": "Groups of traps of all classes, one phase without a notch, well_fill_power >= 1, empty traps at the start of a pass, express = 0, all rows and columns, no negative pixels. In the place of some groups of one lifetime-continuum trap (TrapLifetimeContinuumAbstract and its subclasses) put a group of TrapInstantCapture, one for every bin of lifetimes with the share of the traps of that bin as density. If all but a share delta of the traps have lifetimes within a factor of 1 + eps of that of their bin, add_cti returns images that differ by at most 40 (eps + delta) q times the charge of the image, summed over all pixels, with q = (1-lambda_p)^-(rows+offset_p) (1-lambda_s)^-(columns+offset_s) - 1 and lambda at least four times the number of traps per pixel times well_fill_power / full_well_depth. If q < 1 and no pixel is too faint, remove_cti with the bins undoes an image made with the distributions, and the other way round, up to q^(n+1) + 40 (eps + delta) q / (1-q) times the charge after n iterations.", "quantifier": "all images meeting the conditions, numbers of rows and columns, offsets, lists of trap groups of all classes, normalised distributions of lifetimes, measurable bins of any number, numbers of iterations", "why_tests_cant": "a bound for all distributions and all bins; the two descriptions are simulated by different trap managers, one with elapsed times and one with fill fractions", "anchors": ["arcticpy/main.py:add_cti", "arcticpy/main.py:remove_cti", "arcticpy/traps.py:TrapLifetimeContinuumAbstract", "arcticpy/traps.py:TrapInstantCapture"]}
{"id": "C115", "title": "Errors of the description of traps over a background with well_fill_power up to 1", "statement": "Groups of traps of all classes, one phase without a notch, well_fill_power between 0 and 1, empty traps at the start of a pass, express = 0, all rows and columns. Images have a background: pixels of l_p electrons keep l_s electrons in parallel clocking and at least b electrons in serial clocking, k is at least the number of traps per pixel times the slope of the fill fraction between 0 and b, 4k < 1. If two descriptions of the traps differ by eps (in the sense of C110: densities, release rates and capture rates by a fraction eps <= 1 at most and distributions of lifetimes by eps in the integral of the absolute difference), add_cti returns images that differ by at most 20 eps q times the charge of the image, summed over all pixels, with q = (1-4k_p)^-(rows+offset_p) (1-4k_s)^-(columns+offset_s) - 1. If q < 1 and every true pixel has l_p electrons and a margin of q + 20 eps q / (1-q) times the charge, remove_cti with one description undoes an image made with the other up to q^(n+1) + 20 eps q / (1-q) times the charge after n iterations. With bins of lifetimes in the place of distributions of lifetimes, as in C114, the same holds with 40 (eps + delta) for 20 eps.", "quantifier": "all images meeting the conditions, numbers of rows and columns, offsets, lists of trap groups of all classes, distributions of lifetimes and bins of them, numbers of iterations", "why_tests_cant": "a bound for all descriptions and images; the fill fraction has unbounded slope at zero charge for well_fill_power < 1", "anchors": ["arcticpy/main.py:add_cti", "arcticpy/main.py:remove_cti", "arcticpy/ccd.py:well_fill_power", "arcticpy/traps.py:TrapInstantCapture"]}
{"id": "C116", "title": "CTI from traps of all classes can be undone over a background, with a notch and any well_fill_power", "statement": "Groups of instant-capture traps, traps with a capture timescale and traps with a distribution of lifetimes, one phase with well_notch_depth >= 0 below full_well_depth and any well_fill_power > 0, empty traps at the start of a pass, express = 0, all rows and columns. Images have a background: pixels of l_p electrons keep l_s electrons in parallel clocking and b electrons in serial clocking, b is more than the notch holds, k is at least the number of traps per pixel times the largest change of the cloud volume per electron for clouds of b electrons or more (cloud volume of b electrons / (b - notch) for well_fill_power <= 1, well_fill_power / (full well - notch) above), 4k < 1. Then add_cti is the readout of each column, then of each row, with one transfer after the other. With q = (1-4k_p)^-(rows+offset_p) (1-4k_s)^-(columns+offset_s) - 1 < 1, every image with l_p electrons and another one per trap and transfer in every pixel comes from exactly one image with l_p electrons in every pixel; remove_cti with n iterations returns it up to q^(n+1)/(1-q) times the charge; add_cti keeps at least 1 - q times the distance between two images with l_p electrons in every pixel, and remove_cti increases the distance between two images at most 1 + q + ... + q^n times.", "quantifier": "all images meeting the conditions, numbers of rows and columns, offsets, lists of trap groups of all classes, notch depths, well fill powers, full well depths, dwell times, numbers of iterations", "why_tests_cant": "existence, uniqueness and convergence for all images; the tests use no notch when they correct images", "anchors": ["arcticpy/main.py:add_cti", "arcticpy/main.py:remove_cti", "arcticpy/ccd.py:well_notch_depth", "arcticpy/ccd.py:well_filling_function"]}
{"id": "C117", "title": "Errors of the description of traps over a background, with a notch and any well_fill_power", "statement": "As C116, with two descriptions of the traps, for both of which the background is kept. If they differ by eps in the sense of C110 (densities, release rates and capture rates by a fraction eps <= 1 at most, distributions of lifetimes by eps in the integral of the absolute difference), add_cti returns images that differ by at most 20 eps q times the charge of the image, summed over all pixels. If q < 1 and every true pixel has l_p electrons and a margin of q + 20 eps q / (1-q) times the charge, remove_cti with one description undoes an image made with the other up to q^(n+1) + 20 eps q / (1-q) times the charge after n iterations. With bins of lifetimes in the place of distributions of lifetimes, as in C114, the same holds with 40 (eps + delta) for 20 eps.", "quantifier": "all images meeting the conditions, numbers of rows and columns, offsets, lists of trap groups of all classes, distributions of lifetimes and bins of them, notch depths, well fill powers, numbers of iterations", "why_tests_cant": "a bound for all descriptions and images; the tests use the same traps for adding and removing CTI", "anchors": ["arcticpy/main.py:add_cti", "arcticpy/main.py:remove_cti", "arcticpy/ccd.py:well_notch_depth", "arcticpy/traps.py:TrapInstantCapture"]}
{"id": "C118", "title": "Errors of the notch depth, full well depth and well fill power over a background", "statement": "As C116, with two descriptions of the CCD (well_notch_depth, full_well_depth, well_fill_power) and the same traps; the background is kept with both. If the volumes of clouds of b electrons or more differ by eta_p at most for parallel and eta_s at most for serial clocking, add_cti returns images that differ by at most E = 4 (1+q) rows columns ((rows+offset_p) traps_p eta_p + (columns+offset_s) traps_s eta_s) electrons, summed over all pixels. If q < 1 and every true pixel has l_p electrons, another q times the charge and another E/(1-q) electrons, remove_cti with one description undoes an image made with the other up to q^(n+1) times the charge and E/(1-q) electrons after n iterations. For an error of full_well_depth only, eta = 1 - ((full-notch)/(full'-notch))^power, full' > full.", "quantifier": "all images meeting the conditions, numbers of rows and columns, offsets, lists of trap groups of all classes, pairs of notch depths, full well depths and well fill powers, numbers of iterations", "why_tests_cant": "a bound for all pairs of descriptions and all images; the tests use the same CCD for adding and removing CTI", "anchors": ["arcticpy/main.py:add_cti", "arcticpy/main.py:remove_cti", "arcticpy/ccd.py:well_notch_depth", "arcticpy/ccd.py:full_well_depth", "arcticpy/ccd.py:well_fill_power"]}
{"id": "C119", "title": "Errors of the description of traps and of the CCD together, over a background", "statement": "As C116, with two descriptions of the CCD (well_notch_depth, full_well_depth, well_fill_power) and of the traps. The background is kept with the first CCD and the first traps and with the second CCD and either traps. The volumes of clouds of b electrons or more differ by eta_p, eta_s at most and the traps by eps at most (as in C117). add_cti returns images that differ by at most E = 4 (1+q) rows columns ((rows+offset_p) traps_p eta_p + (columns+offset_s) traps_s eta_s) electrons + 20 eps q times the charge, summed over all pixels. If q < 1 and every true pixel has l_p electrons, another q times the charge and another E/(1-q) electrons, remove_cti with the second description undoes an image made with the first up to q^(n+1) times the charge and E/(1-q) electrons after n iterations. With bins of lifetimes in the place of distributions of lifetimes, as in C114, the same holds with 40 (eps + delta) for 20 eps.", "quantifier": "all images meeting the conditions, numbers of rows and columns, offsets, pairs of lists of trap groups of all classes and bins of lifetimes, pairs of notch depths, full well depths and well fill powers, numbers of iterations", "why_tests_cant": "a bound for all pairs of descriptions and all images; the tests use the same model for adding and removing CTI", "anchors": ["arcticpy/main.py:add_cti", "arcticpy/main.py:remove_cti", "arcticpy/ccd.py:well_fill_power", "arcticpy/traps.py:TrapInstantCapture"]}
{"id": "C120", "title": "Errors of the description of traps and CCD, parallel clocking only", "statement": "C119 for add_cti and remove_cti with parallel arguments only. With q = (1-4k)^-(rows+offset) - 1, traps that differ by eps at most and cloud volumes from b electrons on that differ by eta at most, add_cti returns images that differ by at most E = 4 (1+q) rows columns (rows+offset) traps eta electrons + 20 eps q times the charge, summed over all pixels. If q < 1 and every true pixel has l_p electrons, another q times the charge and another E/(1-q) electrons, remove_cti with the second description undoes an image made with the first up to q^(n+1) times the charge and E/(1-q) electrons after n iterations. With bins of lifetimes, as in C114, remove_cti is bounded with 40 (eps + delta) for 20 eps.", "quantifier": "all images meeting the conditions, numbers of rows and columns, offsets, pairs of lists of trap groups of all classes and bins of lifetimes, pairs of notch depths, full well depths and well fill powers, numbers of iterations", "why_tests_cant": "a bound for all pairs of descriptions and all images; the tests use the same model for adding and removing CTI", "anchors": ["arcticpy/main.py:add_cti", "arcticpy/main.py:remove_cti", "arcticpy/main.py:parallel_traps", "arcticpy/ccd.py:well_fill_power"]}
{"id": "C121", "title": "Errors of the dwell time, of the traps and of the CCD over a background", "statement": "C119 and C120 with two dwell times (ROE.dwell_times) as well. Capture timescales, release timescales and distributions of lifetimes are compared in units of the dwell time of their own description: rates times dwell times differ by eps times the second at most, and so do densities; distributions of lifetimes per dwell time differ by eps at most. With this eps the bounds of C119 (parallel and serial clocking) and C120 (parallel clocking only) hold: add_cti with the two descriptions returns images that differ by at most E electrons summed over all pixels, and remove_cti with the second description undoes an image made with the first up to q^(n+1) times the charge and E/(1-q) electrons after n iterations. So an error of the dwell time alone by a fraction eps acts as an error of all timescales by that fraction.", "quantifier": "all images meeting the conditions, numbers of rows and columns, offsets, pairs of dwell times, of lists of trap groups of all classes, of notch depths, full well depths and well fill powers, numbers of iterations", "why_tests_cant": "a bound for all pairs of descriptions and all images; the tests use the same model for adding and removing CTI", "anchors": ["arcticpy/main.py:add_cti", "arcticpy/main.py:remove_cti", "arcticpy/roe.py:dwell_times", "arcticpy/ccd.py:well_fill_power"]}
{"id": "C122", "title": "remove_cti passes noise of the readout electronics on without amplifying it", "statement": "As C121, but noise of at most nu electrons summed over all pixels (of either sign, any pattern) is added to the pixels after the CTI and before remove_cti. If q < 1, every true pixel has l_p electrons and every true pixel with its noise has l_p electrons, another q times the charge and another (E + q nu)/(1-q) electrons, remove_cti with n iterations returns an image that differs from the true image with the same noise by at most q^(n+1) times the charge and (E + q nu)/(1-q) electrons. So noise is passed on as it is but for a fraction q/(1-q) of it, whatever the number of iterations. The same holds for parallel clocking only, with the q and E of C120.", "quantifier": "all images and noise meeting the conditions, numbers of rows and columns, offsets, pairs of dwell times, of lists of trap groups of all classes, of notch depths, full well depths and well fill powers, numbers of iterations", "why_tests_cant": "a bound for all images, all noise and all numbers of iterations; the tests correct images without noise only", "anchors": ["arcticpy/main.py:remove_cti", "arcticpy/main.py:add_cti", "arcticpy/main.py:iterations"]}
{"id": "C123", "title": "Superposition and missing traps over a background, with a notch and any well_fill_power", "statement": "As C116 (images over a background that all the traps together keep above b electrons). Let s be the greatest volume per electron of clouds of b electrons or more, T the traps per pixel of a list of groups, l = 4 T s, a = l/(1-l). (1) Parallel clocking: add_cti with the groups of two lists returns the image plus the changes that each list makes alone, up to ((1+a1+a2)^N - (1+a1)^N - (1+a2)^N + 1) times the charge, N being rows + offset: second order in the traps. (2) add_cti with and without the groups of a second list returns images that differ by at most E times the charge, with E = 2 X_p + 3 X_s and X = (1+a1+a2)^N - (1+a1)^N. (3) If q < 1 and every true pixel has l_p electrons, another q times the charge and another E/(1-q) times the charge, remove_cti with a description that lacks some groups of traps, or that has too many, undoes the CTI up to q^(n+1) + E/(1-q) times the charge after n iterations.", "quantifier": "all images meeting the conditions, numbers of rows and columns, offsets, pairs of lists of trap groups of all classes, notch depths, full well depths, well fill powers, numbers of iterations", "why_tests_cant": "bounds for all images and all lists of traps; the tests use the same traps for adding and removing CTI", "anchors": ["arcticpy/main.py:add_cti", "arcticpy/main.py:remove_cti", "arcticpy/main.py:parallel_traps", "arcticpy/ccd.py:well_fill_power"]}
{"id": "C124", "title": "Over a background, CTI does not drive images apart, with a notch and any well fill power", "statement": "C104 for a CCD with a notch and any well_fill_power, over a background. Two images of the same shape with at least l_p electrons in every pixel, where the background stays above b electrons, above the notch, through the readout. If in each direction the traps per pixel times the largest cloud volume per electron of clouds of b electrons or more are at most one half, add_cti of the two images returns images whose difference, summed over all pixels, is at most the difference of the images. If one image is at least as bright as the other in every pixel, it still is after add_cti, and the difference of the total charge does not grow. The same holds for parallel clocking only.", "quantifier": "all pairs of images of one shape over the background, numbers of rows and columns, offsets, lists of trap groups of all classes, notch depths, full well depths and well fill powers that meet the conditions", "why_tests_cant": "a statement on all pairs of images; the tests compare an image with stored numbers", "anchors": ["arcticpy/main.py:add_cti", "arcticpy/ccd.py:well_notch_depth", "arcticpy/ccd.py:well_fill_power"]}
{"id": "C125", "title": "Over a background with a notch, a pixel changes by at most one trap-full per transfer and charge above the full well passes through", "statement": "C107 and C108 for a CCD with a notch and any well_fill_power, over a background that stays above b electrons, above the notch, through the readout (express = 0). With T_p and T_s traps per pixel, add_cti changes pixel (r, c) by at most B(r, c) = T_p (r + parallel offset + 1) + T_s (c + serial offset + 1), whatever the brightness of this and of all other pixels. If two images differ only in pixels that hold M + B(r, c) electrons or more in both, with M at least the full well depths and b of both directions, then add_cti passes the difference on unchanged. remove_cti with one iteration changes pixel (r, c) by at most B(r, c), and with any number of iterations too if every pixel holds B(r, c) electrons more than the background asked for, whether or not the iterations converge. The same holds for parallel clocking only, with T_p (r + parallel offset + 1) for B(r, c).", "quantifier": "all images and pairs of images over the background, numbers of rows and columns, offsets, numbers of iterations, lists of trap groups of all classes, notch depths, full well depths and well fill powers that meet the conditions", "why_tests_cant": "a bound on the change of every pixel for every scene and every release and capture law cannot be sampled", "anchors": ["arcticpy/main.py:add_cti", "arcticpy/main.py:remove_cti", "arcticpy/ccd.py:well_notch_depth", "arcticpy/ccd.py:well_fill_power"]}
{"id": "C126", "title": "Over a background with a notch, remove_cti passes charge above the full well through", "statement": "Traps, CCD, readout, background and B(r, c) as in C125. If every pixel of two images of one shape holds B(r, c) electrons more than the background asked for, and the images differ only in pixels that hold M + 2 B(r, c) electrons or more in both, with M at least the full well depths and b of both directions, then remove_cti with any number of iterations returns images that differ by the same numbers of electrons in the same pixels, whether or not the iterations converge. The same holds for parallel clocking only.", "quantifier": "all pairs of images that meet the conditions, numbers of rows and columns, offsets, numbers of iterations, lists of trap groups of all classes, notch depths, full well depths and well fill powers", "why_tests_cant": "a statement on all pairs of images and all numbers of iterations cannot be sampled", "anchors": ["arcticpy/main.py:remove_cti", "arcticpy/ccd.py:well_notch_depth", "arcticpy/ccd.py:full_well_depth"]}
