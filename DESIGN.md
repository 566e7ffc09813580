# Formal model of jkeger/arcticpy in Lean 4 — design

The code in `/repo/arcticpy` is modelled function by function as total Lean functions
(exceptions are values of `Except Err`), and the properties in `properties.jsonl` are stated
and proved as theorems about these functions. `MANIFEST.json` lists the theorems of each property.

## Trusted base

* Lean 4.33.0's kernel, and the standard axioms `propext`, `Classical.choice`, `Quot.sound`.
  `tools/axioms.sh` prints the axioms of every theorem in `MANIFEST.json`: each depends on a subset of these
  three. The project adds no axiom, no `sorry`, no `native_decide`, no `bv_decide`.
* Mathlib's definitions (`Real`, `Real.exp`, `Real.log`, `Real.rpow`, interval integrals, ordered fields, lists).
* The reading of the Python/Cython source that produced the model. Nothing of the project was run; see "Agreement with the
  project's tests" for a check of the model against the numbers its authors expect.
* The statements: the definitions under `Verif/Spec` and those in `Verif/Model`.

### How numbers are modelled

* Floating point (`np.float64`) is modelled by *exact* arithmetic. All of the watermark, clocking
  and express-matrix code is polymorphic in an ordered field `K`, so the theorems hold over ℚ and ℝ;
  concrete witnesses are evaluated over ℚ by the kernel. Code that uses `exp`, `log`, `**`
  (`traps.py`, `ccd.py`, `model_for_HST_ACS`) is modelled over ℝ. In all properties except C67 to C70, C79, C93 and C94 rounding errors,
  overflow and float comparison artefacts (e.g. `value in cumsum` failing by one ulp) are therefore not exhibited.
* For C67 to C70, C79, C93 and C94 the clocking loops, the trap managers and the well filling are written a second time over an arbitrary
  arithmetic (`Model/Float.lean`; operations and Boolean comparisons with no laws). `C67_exact` proves that with exact
  arithmetic this is the first model. `Model/Binary64.lean` defines IEEE 754 double precision with round-half-even,
  subnormals, overflow, signed zeros, infinities and one NaN. Parameters, about which nothing is assumed: the function
  computed by `np.sum` on a list (numpy's order of addition depends on the length), the fill probabilities (results of `exp`), `pow` (except
  that it gives 0 for base 0), and the numbers in the express matrix and the clock sequence. The integers in the clock
  sequence and the index lists are those of the readout class (`ShapeOf`). `-std=c99` in `setup.py` excludes contraction to fused
  multiply-add in gcc. `Model/FloatRoe.lean` does the same for the readout classes, so that the express matrix is computed in floating point
  as well (`C67_call`, C69). Not covered in floating point: slow-capture traps and stored trap states in C67, error bounds with a time window.
  `Model/FloatMain.lean` applies this to both directions and in the iterations of `remove_cti` (C70).
  C79 takes `np.sum` from left to right; `C79_track_time_order_false` shows that it fails for one of the classes in numpy's order. C93 and C94 bound the rounding errors; they assume that `np.sum` adds all numbers in
  some order (`AnyOrder` in `Model/PairwiseSum.lean`, which has numpy's pairwise order as an instance), and that the
  fractions kept and `**` are computed to a stated accuracy.
* `np.inf`/`nan` in `fill_probabilities_from_dwell_time` are modelled explicitly with a small extended type `ExtF`.
* Python ints are ℕ/ℤ. Windows are lists of non-negative indices (`range` objects).

### Exceptions and memory

* Python exceptions are `Except.error` values of the type `Err`.
* Accesses in Cython code compiled with `boundscheck(False)` are modelled with an explicit check whose failure is
  `Err.outOfBounds`, standing for undefined behaviour. `range` objects are indexed with a check (`Err.indexError`).
* Images are functions on all index pairs plus a size; `Lemmas/Same.lean` proves that only the values inside the size matter.
* Objects: `Model/Roe.lean` has readout objects as values, with the mutated `n_pixel_transfers` returned by each call.
  `Model/RoeObject.lean` has them with all attributes (including the clock sequence computed by the constructor),
  attribute assignment, and a heap in which two arguments may be the same object.

## What is modelled

| source | model | not modelled |
|--------|-------|--------------|
| `main.py:add_cti`, `remove_cti` | `Model/Main.lean` (numeric), `Model/Objects.lean` (with `CCD`, `ROE`, `Trap` objects, missing arguments), `Model/Arrays.lean` (with arrays in memory and their element types), `Model/Windows.lean` (windows of any integers, time windows of any numbers) | `autoarray` frames |
| `main.py:model_for_HST_ACS` | `Model/HST.lean` | |
| `main_utils.pyx` | `Model/Clock.lean`, all loops | |
| `roe.py` | `Model/Roe.lean`, `Model/RoeObject.lean`: all three readout classes, clock sequence, express/monitor/save matrices, constructors, setters | `ROEPhase` as a class of its own (a record here) |
| `trap_managers.py` | `Model/Watermarks.lean`, `Model/TrapManager.lean`, `Model/AllTrapManager.lean`: all four classes; `Model/TrapObjects.lean`: traps and managers as objects | |
| `trap_managers_utils.pyx` | `Model/Watermarks.lean`, all helpers as loops | |
| `traps.py` | `Model/Traps.lean`: all trap classes, `poisson_trap` with the draws as a parameter | `scipy` quadrature error, `fsolve` (its result is a parameter), the random number generator |
| `ccd.py` | `Model/CCD.lean`: constructor, filling function, `CCDPhase` | |
| `main_utils.pyx`, `trap_managers*.py*`, `ccd.py`, `roe.py`, `main.py` in floating point | `Model/Float.lean`, `Model/FloatRoe.lean`, `Model/FloatMain.lean`, `Model/Binary64.lean` | see above |
| `util.py` | `Model/FitsHeader.lean`, `setMinMax` in `Model/Basic.lean` | FITS files |
| `__init__.py` | | re-exports |

Also outside the model: threads and the GIL, run time in seconds (the number of computed transfers is counted, C56), numpy memory layout and
dtypes except in C72.

### Agreement with the project's tests

`tools/conformance.py` runs the *model* on the inputs of the project's tests and compares with what they assert: the matrices,
clock sequences and accessed pixels of `test_roe.py` (exactly, over ℚ), the watermarks and electron counts of `test_traps.py`, and the
images of `test_main.py` (parallel, serial, windows, offsets, time windows, charge injection, trap pumping, multi-phase clocking,
correction, and the stored images of the older IDL program within the tolerances of the tests) in the machine's double precision. All 422
comparisons hold. The run uses `Fp.columnBody`, `Fp.clockCfg`, `Fp.atmSys`, `Fp.removeIter` and so on, and checks on one image that
`Fp.addCti` gives the same. This is testing, not proof: no theorem depends on it (`Verif/Conformance.lean` is imported by no module but `Verif.lean`).
Left out: the tests of `poisson_trap` (random), of plots, of `delta_ellipticity` and of `model_for_HST_ACS` (C42, C46), the tests with
sampled lifetime distributions other than the trail of a log-normal continuum, and `test__split_parallel_and_serial_readout_by_time`, whose time window is a
list of floats.

## Layout

* `Verif/Model/*.lean` — the model; each definition cites the lines it models.
* `Verif/Spec/*.lean`  — small independent specifications: occupancy as a function of depth (`Profile`), histories of
  transfers (`History`), what one transfer should do (`Transfer`), what a readout is (`Readout`), a reference simulation
  without watermarks (`Reference`), and the reference traps behind the interface of `AllTrapManager` (`RefSystem`).
* `Verif/Lemmas/*.lean` — proof infrastructure.
* `Verif/Props/*.lean` — the property theorems `Cnn_…`, with concrete cases meeting their hypotheses and, for violated
  properties, theorems `Cnn_…_false` proving the counterexample.
* `tools/manifest.py` — regenerates `MANIFEST.json` from the theorems; `tools/notes.json` — its notes;
  `tools/axioms.sh` — axioms of all theorems; `tools/mutate.py` — edits a definition in a scratch copy, rebuilds,
  and reports which proofs no longer check; `tools/refute.py` — proves, against the edited definitions with all other
  proofs stubbed, the negation of a theorem's statement (the cases are in `seeded/refute.json`). Results are in
  `seeded/LOG.jsonl`. A proof that stops checking does not show
  that its statement is false of the edited model. The log therefore keeps apart: `failed` (the theorem's own proof no
  longer checks), `dependent` (it uses a lemma whose proof no longer checks; nothing is known about the statement
  itself) and `refuted` (the statement was proved false for the edited model). Until this was separated, the log listed
  the first two together as failed. Of the first 79 lines, 58 were
  logged with an earlier version of `mutate.py`: when one declaration had several errors it could also stub the
  unaffected declaration after it, so its lists could name theorems that the edit does not break. These 58 edits were
  run again with the corrected tool and their lists replaced; the other 21 were logged first in that run. The run used
  a copy of the development from when it ended at C66, and the lines after it one that ended at C77 or earlier: they say
  nothing about theorems added later.

A property that is false of the code keeps its statement, followed by "(False: …)" with the exact condition under which it
holds or fails; both directions are theorems.

## Plan per property

| id | modelled | proof |
|----|----------|-------|
| C01–C08 | `ROE.express_matrix_…` as functions on matrices over `K` | telescoping sums of clamped differences, by induction on the number of passes |
| C02 | error branch of fancy indexing | case analysis: returns `ok` iff not (first-transfer option and express = n_pixels−1) |
| C09–C10 | `ROEChargeInjection` incl. its mutable `n_pixel_transfers` | direct computation; witnesses for the truncation and the stickiness |
| C11–C12 | `ROETrapPumping` | list sums; witness for the int rounding; error characterisation |
| C13–C14 | `_generate_clock_sequence` over ℤ | `Int` division bounds for all n_phases |
| C15 | the clock loop with explicit bounds checks | error-freedom of the loop under the access bounds of C14; witnesses without forced release and with more CCD phases than clock phases |
| C16–C21, C50 | watermark arrays as lists of rows, the three managers branch by branch | invariant by induction over histories; refinement to an occupancy profile (depth → fill) |
| C22–C23 | `TrapManagerTrackTime` as an override record of the instant-capture code | simulation relation; error characterisation |
| C24 | instant manager with s and s+1 species | simulation |
| C25–C26, C45–C46 | real-analytic trap functions | Mathlib analysis |
| C27–C35, C48 | the nested clock loop, `add_cti` | induction over the loops, two-run relational invariants |
| C36 | `remove_cti` | induction on iterations; metric argument |
| C37 | window defaulting | unfolding both calls |
| C38–C39 | `AllTrapManager.save/restore`, save matrices | induction / case analysis |
| C40–C41 | `CCD` over ℝ | monotonicity of clamp and `rpow`; setter case analysis |
| C42 | `model_for_HST_ACS` over ℝ | linear arithmetic on each date interval |
| C43 | header as an association list | unfolding |
| C44 | `poisson_trap` with the draws as a parameter | list reasoning |
| C47 | `AllTrapManager.__init__` | list reasoning |
| C49 | Cython helpers as loops | induction over the loops |
| C51–C52 | `add_cti`, all error branches; states kept between columns | totality from a budget of transfers per watermark array; counterexample when traps are not emptied |
| C53–C55 | `add_cti` against `Spec/Reference` | one transfer on watermarks = one transfer on the occupancy function (sums over levels are integrals), lifted through the loops by a simulation relation; then through the object layer |
| C56 | number of calls made by the loops | counting trap system run beside the real one |
| C57 | order of images | reference simulation in the no-shortage regime, monotone pass by pass |
| C58 | `remove_cti` | distance of two runs of the reference, contraction of the fixed-point iteration |
| C59–C60 | readout objects with attributes, assignment, heap | case analysis on the attributes; relation between an object and a freshly constructed one |
| C61 (and C22, C24 for images) | abstract trap descriptions behind the interface of `AllTrapManager` (`Spec/TrapSpec`), ages by depth (`Spec/RefClocks`) | one-step simulation within a budget of transfers, lifted through the loops with failures matched (`Lemmas/SpecRun`) |
| C62 | `TrapManager` inside the loops, rate equations by depth (`Spec/RefSlow`) | one-step simulation if released electrons cannot lift the cloud (intermediate value theorem), lifted with `Lemmas/SpecRun` |
| C63 | the loops, all three managers | account of C31 for an abstract invariant of a phase; each group takes at most its share of the cloud if traps are few |
| C64 | `add_cti`, `remove_cti`, CCD, all managers | relation between two runs whose electrons differ by a factor, through every loop |
| C65 | the same, readout objects, trap objects | the same relation for times; for lifetime distributions through the reference of C61, since elapsed times are stored in the watermark array |
| C66 | `add_cti`, `remove_cti`, clocking loops, allocation of the watermark arrays | states compared by their occupancy as a function of depth; rows farther from the readout cannot act on nearer ones (C35) |
| C67 | the clocking loops, trap managers and well filling over IEEE doubles (`Model/Float.lean`, `Model/Binary64.lean`) | one lemma per function for any lawful arithmetic; double precision is shown to be lawful |
| C68 | the same | two runs related by equality of states; the traps are empty at the start of each column and pass |
| C69 | express matrices over IEEE doubles (`Model/FloatRoe.lean`) | error bounds for division, multiplication and subtraction; all additions in the insertion of first transfers are exact |
| C70 | `add_cti`, `remove_cti` over IEEE doubles (`Model/FloatMain.lean`) | C67 and C68 for each direction, induction over the iterations |
| C71 | `AllTrapManager`, both calls | two runs whose managers are permuted in every phase; C24 within a group |
| C72 | `add_cti`, `remove_cti` on numpy arrays | memory of buffers; every write goes to a buffer made in the call; agreement with the code by value |
| C73 | `AllTrapManager.__init__`, `save`, `restore`, `n_traps_per_pixel` as objects | memory of objects with `deepcopy`; simulation by values |
| C74 | `add_cti` on a bright pixel, all three trap classes | `Spec/Trail.lean`; one watermark level followed row by row, pass by pass |
| C75 | windows of any integers, `Model/Windows.lean` | equal to the main model for natural numbers; otherwise the access is reached |
| C76 | time windows of any numbers, `Model/Windows.lean` | telescoping sum of the clamped cumulative sum; `overlap` as specification |
| C77 | the heap of `Model/RoeObject.lean` after exceptions, `Model/Failures.lean` | equal to `addCtiHeap` for calls that return; the only assignment is the one of roe.py:692 |
| C78 | `clockCharge` for trap pumping of one pixel (two or more raise, C12) | offsets of the phases, the account of C31 |
| C79 | `icStep`, `slowStep` in double precision (`Model/Float.lean`, `Model/Binary64.lean`), `np.sum` from left to right | rounding is monotone and keeps doubles; the nearest-number argument for a split |
| C80 | `fillFromEmpty`, `fillFromFull`, `slowStep`, `icStep` | monotonicity of (1 - exp(-x))/x; one-transfer lemma for few traps |
| C81 | `add_cti`, `remove_cti`, `model_for_HST_ACS` | distance of two runs of the reference with different traps; the charge that goes through the traps is bounded by the charge that passes |
| C82 | `express` of `add_cti`, `remove_cti`, `model_for_HST_ACS` | every pass compared with the pass of unit weights over the unchanged column; sums of the weights of the express matrix against the number of transfers |
| C83 | `ROEChargeInjection` in `add_cti`, `remove_cti` | reference pass over all rows iterated; windowed matrix of the standard readout; order of trap states for the rising columns |
| C84 | `add_cti`, `remove_cti`; bound for every single pixel | clock loop with a trap system that stops when a transfer moves more than the traps hold; drift of a pixel over all visits |
| C85 | `add_cti`, `remove_cti`; order of the images by their first rows and columns | causality (C35), no creation (C31, C63) and non-negativity applied to the image cut off at a row; summation by parts |
| C86 | `add_cti`, `remove_cti` with objects; lists of traps with others of density zero inserted | equality with the reference simulation (C61, C62), in which species enter through sums weighted with the densities only |
| C87 | `add_cti`, `remove_cti` with objects whose settings are replaced | equality of images and exceptions |
| C88 | `add_cti`, `remove_cti` with objects | the image is unchanged |
| C89 | `add_cti`, `remove_cti`; two images that differ in bright pixels | clock loop with a trap system that stops when the reaction to a full pixel depends on the number of electrons; both runs side by side |
| C90 | `add_cti`, `remove_cti`; a saturated row | canonical watermarks after a full cloud; rows of one pass of the express matrix lie next to each other; both runs side by side |
| C91 | `add_cti` of two images; sum of differences | C55 (reference simulation); surplus in pixels and traps never grows; comparison with the brighter of the two in every pixel |
| C92 | `remove_cti` of any image; iteration and its limit | C55, slopes of C58, C84-type bound of every pixel; contraction |
| C93 | `add_cti` over IEEE doubles (`Model/FloatMain.lean`) against `add_cti` over ℝ; sum of differences | occupancy of the watermarks as a function of height, errors of one transfer in the mean, non-expansiveness of the exact readout (C91) so that errors of passes add up |
| C94 | `remove_cti` over IEEE doubles (`Model/FloatMain.lean`) against `remove_cti` over ℝ, and against the image whose CTI is removed; sum of differences | slope, rise and drop of the exact readout (C91, C92), C93 for each call of `add_cti`, two rounded operations per pixel; geometric series |
| C95 | `add_cti` on Python objects (`Model/Objects.lean`), three calls compared | in one pass the changes of two lists add exactly; the trap-by-trap Lipschitz bounds of C58 for the following passes; binomial remainder of `(1+a+b)^N` |
| C96 | `add_cti` and `remove_cti` on Python objects (`Model/Objects.lean`), two calls compared | the reference simulation: depths times `(s full / full')^power`, densities times the inverse, transfer by transfer; charge bounds keep every cloud below saturation |
| C97 | `Model/Binary64.lean`: the doubles that the floating-point model computes with | the definition of IEEE 754 rounding in `Spec/Ieee.lean`, independent of the model |
| C98 | `add_cti`, `remove_cti` (main.py), CCD.well_filling_function (ccd.py), dwell_times (roe.py) | two descriptions of the instrument compared by `Trap.Alike`; distance of images |
| C99 | `add_cti`, `remove_cti` (main.py), express multipliers (roe.py) | distance and total charge of images, existence and uniqueness of the preimage |
| C100 | column loop of `cy_clock_charge_in_one_direction` (main_utils.pyx) | two images agree in a set of columns, sum of all pixels |
| C101 | `add_cti`, `remove_cti` (main.py), `TrapManager.n_electrons_released_and_captured` | reference simulation with a filled fraction per depth, sums of absolute differences |
| C102 | `add_cti` (main.py), `TrapManager.n_electrons_released_and_captured`, `empty_traps_for_first_transfers` | pixel by pixel order, sums of absolute differences |
| C103 | `add_cti`, `remove_cti` (main.py), `TrapManagerTrackTime` and the other managers | reference readout with a step function for groups of all sorts |
| C104 | `add_cti` (main.py), all trap managers, `empty_traps_for_first_transfers` | pixel by pixel order, sums of absolute differences |
| C105 | `add_cti`, `remove_cti` (main.py), `express` (roe.py), all trap managers | distance to the readout of every transfer, inverse, noise |
| C106 | `add_cti` (main.py), all trap managers | distance between the change made by two lists of traps and the sum of the changes |
| C107 | `add_cti`, `remove_cti` (main.py), all trap managers | largest change of a pixel |
| C108 | `add_cti`, `remove_cti` (main.py), all trap managers | effect of electrons above the full well |
| C109 | `add_cti`, `remove_cti` (main.py), all trap managers | groups of traps missing from or superfluous in the description |
| C110 | `add_cti`, `remove_cti` (main.py), all trap managers | errors of densities, release and capture rates and lifetime distributions |
| C111 | `add_cti`, `remove_cti` (main.py), all trap managers, `CCD` with `well_fill_power ≤ 1` | images over a background |
| C112 | `add_cti`, `remove_cti` (main.py), all trap managers, `CCD`, `ROE` dwell times | errors of the description of the detector |
| C113 | `add_cti`, `remove_cti` (main.py), all trap managers, `ROE` dwell times | units of time |
| C114 | `add_cti`, `remove_cti` (main.py), `TrapManagerTrackTime`, `TrapManagerInstantCapture` | a distribution of lifetimes and bins of lifetimes |
| C115 | `add_cti`, `remove_cti` (main.py), `CCD` (ccd.py), all trap managers | errors of the description of traps over a background |
| C116 | `add_cti`, `remove_cti` (main.py), `CCD` with a notch (ccd.py), all trap managers | inverse over a background with a notch |
| C117 | `add_cti`, `remove_cti` (main.py), `CCD` with a notch (ccd.py), all trap managers | errors of the description of traps with a notch |
| C118 | `add_cti`, `remove_cti` (main.py), `CCD` with a notch (ccd.py), all trap managers | errors of the description of the CCD |
| C119 | `add_cti`, `remove_cti` (main.py), `CCD` with a notch (ccd.py), all trap managers | errors of traps and CCD together |
| C120 | `add_cti`, `remove_cti` (main.py) with parallel arguments only, `CCD` with a notch (ccd.py), all trap managers | errors of traps and CCD |
| C121 | `add_cti`, `remove_cti` (main.py), `ROE.dwell_times` (roe.py), `CCD` with a notch (ccd.py), all trap managers | errors of dwell time, traps and CCD |
| C122 | `remove_cti` (main.py), `CCD` with a notch (ccd.py), all trap managers | noise added after the CTI |
| C123 | `add_cti`, `remove_cti` (main.py), `CCD` with a notch (ccd.py), all trap managers | superposition, missing and surplus groups of traps |
| C124 | `add_cti` (main.py), `CCD` with a notch (ccd.py), all trap managers | order and distance of images over a background |
| C125 | `add_cti`, `remove_cti` (main.py), `CCD` with a notch (ccd.py), all trap managers | change of a pixel, charge above the full well |
| C126 | `remove_cti` (main.py), `CCD` with a notch (ccd.py), all trap managers | charge above the full well |
