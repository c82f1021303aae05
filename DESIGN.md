# UTide in Lean 4: design of the formal model

## 1. What is trusted

* Lean 4.33.0's kernel, and Mathlib's definitions that the statements use (reals, complex numbers, `exp`, `sqrt`, `Complex.arg`,
  matrices, derivatives, lists).
* Axioms: every theorem listed in `MANIFEST.json` depends on at most `propext`, `Classical.choice`, `Quot.sound`
  (`python3 tools/axioms.py` after `lake build` prints them theorem by theorem). No axiom is added; no `sorry`, `native_decide`, `bv_decide`.
* Faithfulness of the hand-written model to `/repo`; each definition cites file and lines. The catalogue
  `Verif/Model/ConstTable.lean` is generated by `tools/gen_table.py` from `utide/data/ut_constants.npz`, every float64 being
  written as the exact dyadic rational it denotes (type `Dy`).
* **Idealised arithmetic.** float64 is exact real or complex arithmetic. Where the code can produce or meet them, non-finite values are
  explicit (`Fl`: finite real, NaN, +inf, -inf). Rounding, overflow and signed zeros are not modelled. Numbers among the options are
  rationals (every float64 is one).
* **Where NaN would travel through the fit** (for instance a latitude of NaN, division by a zero sine at latitude 0), the model stops with the
  outcome `.nonFinite` instead of returning numbers. A theorem about a returned solution therefore does not speak about such runs.
* **External numerics are parameters** (`Model/Num.lean`: `Num`): `np.linalg.lstsq`, `pinv`, `inv`, `svd`, `cholesky`, `eigvals`+`spacing`,
  `np.random.multivariate_normal`, `scipy.signal.lombscargle`, `argsort`. A theorem that needs something of them names the contract:
  `LstsqOk` (the minimum-norm least-squares solution, the residual sum when the matrix has full column rank and more rows than columns),
  `ArgsortOk` (some permutation that sorts, NaN last, ties in any order), `InvOk`, `PinvOk`, `SvdOk`, `CholeskyOk`, `NudgeOk`, `MvnOk`
  (`Model/Contracts.lean`), `LombOk` (`Model/Periodogram.lean`: the classical normalised periodogram with the phase shift tau).
  `Lemmas/Ideal.lean` constructs one `Num` that meets all of them (`idealNum_ok`), so that no hypothesis is contradictory.
  `lstsq` with `rcond` strictly between 0 and 1 may cut off more than rounding; the contract then only fixes the length of the answer.
* **Parsing of date strings** (`np.datetime64(epoch)`, arrays of strings) is the parameter `dt64` of `Env`; nothing is assumed about it
  except in examples. Non-finite numbers become NaT in `astype("datetime64[ms]")`, and NaT becomes NaN on the way back to days (`Model/Time.lean`).
* numpy functions written out in `Model/Num.lean`: `median`, `round` (half to even), `searchsorted` and `interp` (for sorted arguments), `linspace`;
  the FFT is its defining sum (`Model/Periodogram.lean`).

## 2. Shape of the model

| file under `lean/Verif/Model` | models |
|---|---|
| `Py` | exceptions as values (`PyErr`, `Except`), Python option values (`PyVal`), `Fl` |
| `Bunch` | `utilities.py` class `Bunch` (ordered dictionary, attribute access, `update_values`, `update_None`) |
| `MatBunch` | `utilities.py` 66-100, 186-331: printing, `loadbunch`, `showmatbunch`, `convert_unicode_arrays` (the decoding of files is not modelled) |
| `PyFile` | `utilities.py` 102-125: `Bunch.from_pyfile`; what Python makes of the program text is a parameter |
| `Options` | `_solve.py` 16-119, 530-560: defaults, translation and validation of the options |
| `Time` | `_time_conversion.py`, numpy's calendar rule for datetime64 |
| `Table`, `ConstTable`, `Constants` | `data/ut_constants.npz`, `_ut_constants.py` |
| `Astronomy`, `Harmonics` | `astronomy.py`, `harmonics.py` (`FUV`, `linearized_freqs`, `ut_E`) |
| `Selection` | `constituent_selection.py` |
| `Ellipse` | `ellipse_params.py`, and its inverse in `_reconstruct.py` |
| `EllipseCall` | the calling conventions of `ut_cs2cep` |
| `LombCall` | `periodogram.py` 39-219, 292-374 with the arguments `solve` leaves at their defaults (`fbands`, `cfreq=None`, `ofac`, `max_per_band`, `frqosamp`) |
| `SlvInit`, `Solve` | `_solve.py` (`_slvinit`, `_solv1`, `_reorder`), `diagnostics.py` (`ut_diagn`, SNR, PE) |
| `Reconstruct` | `_reconstruct.py` |
| `Output` | the Bunches returned by `solve` (`_solve.py`, `_solv1`, `_reorder`) and `reconstruct` (`_reconstruct.py` 64-91) as dictionaries |
| `Args` | `solve` and `reconstruct` for arguments that are plain lists or tuples |
| `Robust` | `robustfit.py` |
| `Confidence` | `confidence.py` (`nearestSPD`, `cluster`, `ut_linci`, `_confidence`), linear and Monte-Carlo branch |
| `Periodogram` | `periodogram.py` (`fbndavg`, `_lomb_freqs`, `_psd_lomb`, `_ls_cross`, `_psd`, `band_psd`) |
| `Num`, `Contracts` | external routines and what is assumed of them |

`solve E t u v lat opts : Except PyErr Coef` is one call of `utide.solve` in the environment `E` (external numerics, date parser), with the options as the
dictionary the user passes; `reconstruct E t coef args` likewise. `solveP`, `reconstructP` add the printed output. All are compositions of the per-file
definitions in the order of the code, so that the property theorems are about whole calls wherever the property is.

`Lemmas/*` holds helper lemmas, `Props/*` the specifications, the property theorems `Cnn_...` and, beside each, an example meeting its hypotheses.
Specifications are separate definitions that do not call the code's helpers (examples: `TidalCurve` in FitProps, `current` in EllipseProps,
the calendar in TimeProps, `textbook` in TextbookProps, `PartialMod` in LinciProps).

Choices that matter for reading the model:

* Arrays over time are lists; the model matrix is a list of rows, one per usable sample, a row being a function of its sample time.
* An array over the catalogue is a function of the catalogue position.
* `PyVal` covers the option values that can reach the code: None, booleans, numbers, strings, lists/tuples, arrays of names, dicts, Bunches.
* Console output is a separate function of the same call (`solveP`, `reconstructP`; needed for C23).
* Loops (robust iteration, the `nearestSPD` adjustment, loops over compounds) are structural recursions on the remaining iterations;
  unbounded `while` of `nearestSPD` stops after 100 passes as in the code.
* Whole-table facts are proved by `decide +kernel` on the complete catalogue (146 entries), which is exhaustive, not a sample.
  Option-processing equations use `kernel_rfl` (`Lemmas/KernelRfl.lean`), an `rfl` proof whose check is left to the kernel.

Not modelled: the execution of a Python file (`from_pyfile`; its outcome is a parameter), the decoding of `.mat`/`.npz` files (the decoded contents are the input of `loadbunch`), docs,
notebooks, tests, warnings issued by numpy.

## 3. Properties

"False" means: the property as stated does not hold of the code. Then `Cnn_full` is the statement, `Cnn_false` its refutation on the model,
and the `_partial` theorem what does hold.

| id | modelled and proved how |
|---|---|
| C01 C02 C03 | Whole `solve` and `reconstruct`. For every coefficient vector `m`, reconstructing from the ellipse parameters equals `row t · m` (real part for a scalar series). Optimality from `LstsqOk`; competing curves are the separate spec `TidalCurve`. |
| C04 | `IndepColumns` of the fitted model, uniqueness of least squares, then the ellipse parametrisation is injective (circles excepted: only theta±g is determined). |
| C05 C06 C07 C08 | Two runs compared (`Props/Twin`): minimum-norm least squares is unique, so linear and commutes with conjugation and rotation; re-ordering and PE follow; `_byname` theorems cover the SNR order, where positions may change. |
| C09 C10 | `ut_cs2cep` as algebra over ℂ; ranges, and extrema of `\|ap e^{iφ} + am e^{-iφ}\|`, sense of rotation. |
| C11 C12 | Inference rows of the model matrix; ratio and offset read back from the results; layout of names. |
| C13 | False: `Q` and `beta` are computed and not used (`C13_false`). Partial: all other results do not depend on the ratios. |
| C14 | False for plain dicts; validation of a `Bunch` proved. |
| C15 C16 C17 C18 | Selection as list processing over the catalogue; Rayleigh criterion and monotonicity; explicit lists; alignment of name/frequency/index also after re-ordering. |
| C19 C20 C21 C22 | Option dictionaries key by key. C20 also at the level of harmonics, fit and reconstruction: each (nodal, phase) combination gives the documented basis function, stated with the textbook spec of C73. |
| C23 | Printed output of `solveP`/`reconstructP` is empty. |
| C24 C28 C29 C30 | Data editing on lists of cells. C30 false: the mask of `t` is dropped. |
| C25 C26 C27 | Calendar spec by recursion over dates, induction. C27 false: bare numbers without epoch are milliseconds since 1970. `C27_milliseconds` and `C27_integers`: the fraction is dropped on either side of 1970, NaN and infinities become NaN, and the same for integers and booleans. `C25_number`: epochs given as numbers. |
| C31 C35 C36 | `reconstruct` sample by sample; sums over permuted/filtered constituents. `C36_thresholds`: what min_SNR and min_PE select, with NaN and infinite ratios. |
| C32 C33 C34 C37 | Percent energy, `_reorder` with an arbitrary lawful `argsort`, diagnostics table. C34 false for explicit orders naming fewer constituents. |
| C38 | `HasDerivAt` of the astronomical polynomials. |
| C39 C40 C41 C42 C43 C44 | Harmonics: products over parents, continuity of `t ↦ basis`, linearised mode, raw mode, latitude. C40 false for M7 (weight 3.5); C43 false at latitude 0. |
| C45 C46 C47 C48 C49 C69 | Robust fit with arbitrary `lstsq` meeting its contract: weights, termination, invariants of the loop. `C47_solve` states the stopping rule with the `tol` and `maxit` of the call. C46 false (Python `max` on arrays), C48 false (exhausted iteration), C69 false (weights squared). |
| C50 C51 C52 C53 C54 C70 C71 C72 | Linear intervals as partial derivatives (`PartialMod`), Gram matrix algebra for paired columns, `inv` contract; coloured scaling. C50 false for Xv = 0, C52 false for coloured noise. |
| C55 C56 C57 | Clustering modulo a turn, orientation spread (C56 false: clustered with 360), `nearestSPD` by the spectral argument of Higham. |
| C58 C59 C60 C61 C62 C63 | Periodograms: band averages as sets of positions, Parseval for the discrete Fourier sum, Cauchy-Schwarz for co-spectra, band table, frequency grid. C59 false (one frequency above the band). |
| C64 C65 C66 C67 C68 | Association lists with invariants; catalogue dictionaries; record length and reference time. `C68_tolerance`, `C68_two_spacings`: which times count as evenly spaced, to the millisecond. |
| C73 | Textbook harmonic `f e^{i(V+u)}` written down independently of the loops of `FUV`; M7 separately. |
| C74 C75 | Every combination of documented option values passes validation; a well-formed call without inference, ordinary least squares and without intervals returns a solution. |
| C76 C77 C78 | The minimum-norm solution as a linear map: characterised by the normal equations and orthogonality to the kernel (`Lemmas/LstsqAdd`). Sum of records, residual and fitted curve are then compared run by run; for scalar series the fitted curve is shown to be real, so that `reconstruct` returns it. |
| C79 | Permutation invariance of the cost, hence of the least-squares solution, compared in time-independent form (ellipse by name, level at every time). Full statement `C79_full` refuted by `C79_false` (reference time depends on the order); partial theorems for exact Greenwich phases with exact or no nodal correction, and for equal reference times. |
| C80 | Triangle inequality on the textbook harmonics. |
| C81 | Induction over the iterations: residuals, `sigma_hat` (both medians) and hence the weights of the two fits correspond. `rcond` must not truncate (the default does not). |
| C82 | Range of each weight function; lengths through the loop. |
| C83 | Relation between `SNR`, `ell` and `ci` of the returned result, in their final order. |
| C84 | `C84_units` on top of `confidence_scale` (spectra, band averages, covariances, error propagation and inferred intervals under a factor `k > 0`); `lombscargle` through its contract. |
| C85 | The two sums computed from the raw record (lines 193, 200) see only the residual, which is orthogonal to the columns of mean and trend. |
| C86 | `formatted` (`Model/MatBunch`), `str` of a value a parameter. `C86_listing` (sorted permutation of the entries, widths as maxima), `C86_order`, `C86_aligned`; `C86_empty`, `C86_nested_empty` for the ValueError. |
| C87 | `loadbunch`, the file a list of named values (strings, structures, arrays with abstract elements). `C87_load` compares file and result along every path of names; `C87_other`. |
| C88 | `showmatbunch`; specification by the relation `LeafAt`. `C88_show`, `C88_empty`. |
| C89 | False as documented: strings inside object arrays are not stripped (`C89_false`). `C89_convert_partial` says what is done, value by value. `C89_again`: converting the result again changes nothing. |
| C90 | False (`C90_false`, in the run of `OctExample`/`OctRun`, ratio one): `varReap`, `varImap` are a quarter of the reference variances and both `Rp` and `Rm` contribute, so the interval comes out as r/√2 times that of the reference, for amplitude and phase alike. `C90_reduced_partial` proves exactly that for phase offset 0 (mod 180°), whatever the record; `C90_offset_partial` gives both intervals for every phase offset, in terms of the amplitude and the intervals of the reference. |
| C91 | False (`C91_false`, same run): the columns are [E, conj E, Etil+, Etil-, 1] but the variances are read from columns c and c+nc with nc the number of fitted constituents, so with references and others present the wrong columns are paired. `C91_noinference_partial`: right when nothing is inferred, for every best linear unbiased estimator (unique, `TiedBlue.unique`). |
| C92 | Triangle inequality over the satellites, latitude factors bounded on |sin lat| ≥ sin 5°, the limits checked against the whole table by kernel evaluation. `C92_primary`, `C92_compound`, `C92_never_zero`. |
| C93 | Three runs compared: minimum-norm solutions of `B x = u`, `B x = v` combine to that of `B x = u + iv`; the coefficients of a real series are conjugate pairs (`Facts.conjugate`); everything predicted from them by name (`predicted`). `C93_components`. |
| C94 | The curve of the smaller model is a competitor of the larger one: any result, also robust, consists of rotating components by name tied as requested (`Facts.components`). `C94_nested`. |
| C95 | Coefficients by name: permuting the columns changes neither the fit nor the norm of the coefficients (`SameSel.minNorm`), and the minimum-norm solution is unique. `C95_constituents` (same names however obtained), `C95_list` (permuted list, names derived). |
| C96 | At a Fourier frequency the doubled phases sum to zero (geometric sum), so the phase shift is 0 and both sums of squares are n/2; the interpolated window is the window (`interp_grid`). `C96_agree`, `C96_band_psd`. |
| C97 | Shifted times turn the phase shift by whole half turns, or, when it is undetermined, both sums of squares agree and the amplitudes turn together (`ls_shift_cases`). `C97_origin`. |
| C98 | Cosine and sine counted from the phase shift are orthogonal on the sample times; completing squares. `C98_best_sinusoid`, with `TaperOn` and `Explains` as specification. |
| C99 | From `C36_selected`: the prediction is the level plus a sum over the selected constituents. `C99_modular` (inclusion and exclusion for two lists), `C99_each`. |
| C100 | The minimum-norm solution for conjugate data has both rotating components exchanged and conjugated (`mirror_sol`, from `row_mirror`). `C100_mirror`, with `mirror`, `Mirrored` as specification. |
| C101 | Along a regular stretch the harmonics are powers of different points of the unit circle; a combination vanishing there vanishes by independence of the powers `z^j` and `j` (`pencil`, Lemmas/Pencil.lean, from polynomials with a double root at 1). `C101_separated`, `C101_scalar`, `C101_vector`, `C101_intervals`; `C101_aliased` for the converse (C72); `C101_hourly` without conditions on the frequencies (from C130). |
| C102 | `coefOut`, `reconstructOut` (Model/Output.lean) list the entries of the two Bunches; `C102_entries` (keys are a permutation of `documentedEntries` of the options, none twice), `C102_arrays`, `C102_reconstruct`, `C102_axes`, `C102_again`. |
| C103 | `FilledBy` (the second series is the first with missing entries replaced by those of the reconstruction), `InGaps` (every filled row lies between usable rows); `C103_filled`, `C103_gaps` by the orthogonality characterisation of the least-squares solution: the added rows have residual zero. |
| C104 | Orthogonality of the residuals of both analyses to the change of the fitted curve (`change_orthogonal`); `C104_contraction`, `C104_single`, sums over `usableRows` of the series. |
| C105 | **False** for `solve`: `tin.shape` is an AttributeError for a list. `solveArgs`, `reconstructArgs` (Model/Args.lean); `C105_full`, `C105_false`, `C105_partial` (which calls work and which error the others raise; `reconstruct` takes lists). |
| C106 | `SameHoles` (same entries missing), `outcome` (result or which error), `SamePlan`; `C106_outcome` by running both calls side by side (`Alike`), `C106_plan` from `sameGrid`. |
| C107 | `RepeatedRows k`; the misfit of every curve is multiplied by `k` (`repeat_core`), so the minimum is at the same place; `C107_repeated`, `C107_same_reftime`. |
| C108 | Hypotheses on the larger result only (amplitude zero, level constant); its curve is the best of the smaller model, which is unique (`C108_reduced`). |
| C109 | The matrix handed to `mvn` equals residual covariance times the Gram matrix of the two Blue combinations (`mcCov_eq`), Kronecker fashion (`estCov`), positive semidefinite (`C109_psd`); the rest is `FromDraws`. `mvn` stays opaque (any generator). |
| C110 | `finMatrix` succeeds iff powers are finite and traces nonzero; traces are residual mean squares times positive sums (`kron_traces`). |
| C111 | False of the code: `sigma_hat` centres with `np.median` of complex residuals, which sorts by real part (`C111_false`: nine samples, talwar weights, mean 0 becomes 4 after a quarter turn). `C111_partial`: true for half turns, for `weight_function='ols'`, and without inference for currents along a line (`line_residual`: the residuals stay on the line). |
| C112 | False of the code: with coloured noise the two-component branch scales only the variances of v, here by 0/0 (`C112_false`: the elevation has an interval, the current has NaN). The NaN is an effect of exact arithmetic: in floating point rounding noise takes the place of the zeros and the variances of u stay unscaled, which is not the interval of the elevation either; that variant is not proved. `C112_partial`: true for white noise, where the intervals of minor axis and orientation are zero. |
| C113 | `C113_repeated` relates two successful runs through the best linear unbiased weights (`Blue`), whose values on the longer record are those of the shorter one divided by k, and the residual sum, which is k times as large. Hypotheses: white noise, no inference, same constituents and reference time (repetition can move the reference time, C79). Example: five samples given twice, factor sqrt(2/7). |
| C114 | False of the code: a record of zeros (a sensor that is stuck at zero, a component that is dry) gives sigma_hat = 0, weights 0/0 and LinAlgError in the next lstsq, with every weight function that normalises residuals (`C114_zeros`, `C114_false`). `C114_partial`: true for cauchy, fair and welsch, whose weights are never zero, when no curve of the constituents passes through more than half of the samples; so the analysis cannot fail for any other reason. |
| C115 | `C115_elevation`, `C115_current`, from the description of the intervals by best linear unbiased estimates (C70), the signs of the partial derivatives of the ellipse parameters, and C83. Perfection is stated with the samples and curves only. |
| C116 | False of the code (`C116_false`): if every constituent asked for (listed, or resolved with constit=auto) is a reference or inferred and phases or nodal factors are corrected, an IndexError (`C116_alone`, for all such calls); with approximate=True and a reference used twice, a ValueError (`C116_repeated`, for all such calls). `C116_returns_partial`: every other sound call returns, except that exact inference from NO1, OO1 or UPS1 with nodal corrections is left open (their nodal factor can vanish, C92). |
| C117 | Spec `HourlyRecord`, `Automatic`, `MildNodal`. `C117_fits` from C15 and `resolved_few` (rank of each separation in the table, checked by the kernel); `C117_frequencies` from `freq_good` (frequencies stay within exact rational bounds for reference times in [0, 4000000] days); `C117_separated`, `C117_scalar`, `C117_vector` through C101; `C117_returns` through C72 and C75. With nodal corrections the record must be shorter than 650 Rayleigh_min hours, so that NO1, OO1 and UPS1 are not selected (C92). |
| C118 | `C118_smooth` (the curve is `ContDiff ℝ ⊤`, i.e. analytic, from the textbook form C73), `C118_crossing` (intermediate values), `C118_rate` (Lipschitz constant in steady modes, for the choice of constituents made by constit, min_SNR, min_PE). M7 is excluded: its harmonic jumps (`C40_false`). |
| C119 | `C119_modes` (general: factor `conversion` between the modes; coefficients of the two minimum-norm or unique solutions compared by name), `C119_phase`, `C119_nodal` (explicit). M7 is excluded as in C73; the general lemma `OtherCorrections.converted` covers any constant factors. |
| C120 | `C120_weights` (robustfit), `C120_solve` (curves and samples). Functions and tuning constants are listed in `weightTable`, medians, robust standard deviation and leverage specified independently of the model (`IsMedian`, `IsRobustSd`, `IsHat`, `IsLeverage`). andrews, huber, logistic never return (C46). |
| C121 | `C121_unbiased`, `C121_prediction`, `C121_residual`, `C121_calibrated` (with C70). `NoisyRuns` is a family of runs indexed by the outcomes of a probability space; moments are Bochner integrals. |
| C122 | `C122_withheld`, `C122_single`, from the orthogonality of the residuals (C78) in both analyses; no independence of the columns is needed. |
| C123 | `C123_false` (three missing values at times 0, 0.5, 1), `C123_partial`, `C123_robust`. |
| C124 | `C124_difference`: the bound for any two choices. `C124_threshold`: in terms of `min_PE`. |
| C125 | `C125_misfit`, `C125_agree`. |
| C126 | `C126_uncorrelated`; orthogonality is a condition on the sample times only, written with the harmonics the reconstruction uses. |
| C127 | `C127_average` from optimality of the fit; `C127_interval` from C70: the averages are the best linear unbiased estimators. |
| C128 | `C128_mean` from C36 and the mean square of sums of rotations (Lemmas/MeanSquare); `C128_share` with C32. `C128_hourly` discharges the conditions on the frequencies through C130. |
| C129 | `C129_white_partial` from C113 with one copy; `C129_descending`, `C129_uneven` by following negative frequencies through the bands; `C129_false` on five samples given forwards and backwards. |
| C130 | The frequency as a quadratic in the date with rational coefficients (`freq_poly`); coefficients against the catalogue for all 146 constituents in the kernel (`near_table`, `far_table`, `gap_table`, `margin_table`). |
| C131 | `IsMinNormSol.equal_columns` (the solution is orthogonal to the kernel), so coefficients depend on the name only (`Facts.named_coef`); `C131_equal`, `C131_shared` by comparing the curves of both models. |
| C132 | `IsMinNormSol.proportional_columns` (the solution is orthogonal to the kernel); `C132_alike`, `C132_opposed`, `C132_constant` for proportional, conjugate and constant harmonics, `C132_third`; `C132_grid`, `C132_whole` in terms of the spacing and the frequencies. |
| C133 | `phaseShift_poly` (the shift is an explicit cubic), whole-table bound of its coefficients; `C133_arguments`, `C133_harmonics`, `C133_fits` (triangle inequality in the space of residuals, `OtherCorrections.near`); satellites: `modulation_rate`, `prod_difference`; `C133_nodal`, `C133_nodal_fits`, `C133_rates`. |
| C134 | `harmonic_mirror` (steady harmonics at the mirrored time), `backward_core` (the mirrored best curve is the best curve of the mirrored samples, `OlsRun.best`, `OlsRun.unique`); `C134_backwards`, `C134_raw`, `C134_prediction`. |
| C135 | `errorSq_scalar` (w as 1.96^2 times the variance of the best linear unbiased estimate), `blue_more` (weights of the shorter record are admissible for the longer), `blue_larger` (weights admissible for the larger model are admissible for the smaller); `C135_more_samples`, `C135_more_constituents`. |
| C136 | `result_normal` (ellipses in normal form, any method), the predicted curve fits the new record exactly and is the only one (`OlsRun.unique`); `C136_again`. |
| C137 | `Paired.weighted`, `covariances_weighted` (rows scaled by the roots of the weights), `Facts.ciRowWeighted`; `C137_white`, `C137_coloured`. |
| C138 | `weighted_det`: weighted Gram matrix invertible iff rows of non-zero weight have independent columns; `Facts.weighted_separated`; `C138_available`, `C138_needed`. |
| C139 | From C15 and whole-table facts (`pair_table`, `days_table`, `comparison_table`, checked by the kernel); the K1-M2 exception is proved to occur (`C139_exception`). |
| C140 | `mk_eq_update`: the constructor is one update with all pairs; `C140_built`, `C140_precedence`, `C140_copy`. |
| C141 | `C141_split` from C78 and the form of the reconstruction (`OlsRun.curve`); `C141_scalar`, `C141_vector`; `C141_constituent` bounds the error of one ellipse by a lower bound on the energy of curves, `AveragesOut.bessel` gives that bound in orthogonal designs (`C141_orthogonal`, `C141_amplitude`). `C141_error`: in such designs the error is exactly the average of the noise against the harmonic. |
| C142 | `Model/PyFile`; what Python makes of the program is a parameter. `C142_program` against a character-wise specification of indenting, `C142_effect`, `C142_raises`. |
| C143 | `interp` characterised by induction on the points (`interp_at`, `interp_gap`, `interp_before`, `interp_after`); `C143_interp`, `C143_unique`, `C143_bounded`, `C143_power`, `C143_solve`. |
| C144 | `Model/EllipseCall` (broadcasting between different lengths not modelled); `C144_height`, `C144_current`, `C144_refused`, `C144_determined`; `C144_samples` ties it to the Monte-Carlo code. |
| C145 | `Props/RobustCi2`: `msm_complex`, `vars_complex`, `C145_white`; example of a robust run with weights other than one. |
| C146 | White-noise runs on two records related by a rotation (`Transformed`), the intervals expressed by best unbiased estimates and noise variances of the components (`white_facts`). The full statement is false (`C146_false`): the covariance between the residuals of u and v is ignored, so a current along a line has an interval smaller by the factor √2 when the axes stand at 45° to it. Proved (`C146_isotropic_partial`): it holds for every angle when the residuals of the components have equal sums of squares and are uncorrelated; then phase intervals agree as well, and minor axis and orientation unless the cosine coefficient of v is exactly zero. |
| C147 | Relation `Change` between two sets of rows describing the same curves (coefficients related by a bijection `S`), carried through one weighted fit, one step, the loop and the output of the model of `robustfit` (`robustfit_changed`); medians and σ estimates are invariant under permutations. Solve level: `SameSel.change` builds the relation for two selections of the same constituents. |
| C148 | The rows of the two runs are permutations of rows that describe the same curves; with separated constituents their columns are independent, so the coefficients are related by a bijection (`change_of_range`) and `robustfit_changed` applies (`shuffle_robust`). Companion of C79, which is the statement for ordinary least squares. |
| C149 | False: the code multiplies the number of frequencies by ofac but not their spacing (`C149_false`), so the grid continues to ofac times the Nyquist frequency. `Model/LombCall` has the periodogram functions with all their arguments. `C149_grid_partial`: which frequencies there are. `C149_no_effect`, `C149_noise`: where the record's Fourier frequencies reach beyond the bands, oversampling changes nothing, so `frqosamp` has no effect on the noise levels. |
| C150 | `Model/LombCall` (`fbndavgOf`); specification by `reach`, `Nearest`, `meanOver` of C58; `C150_mean`, `C150_excluded`, `C150_defaults`, `C150_bands`, `C150_constituents`, `C150_nonneg`. The companion of C58 for the arguments `solve` leaves alone. |
| C151 | `Model/LombCall` (`psdLombCall`); the windowed series of a scaled window is that of the scaled series, so the units lemmas of `SpecScale` apply; interpolation is linear in the window (`interp_scale`) and exact on constants (`interp_const`). `C151_even`, `C151_uneven`, `C151_none`, `C151_frequencies`. |
| C152 | The stages of the model commute with a change of the fields that are not read: `solve_apply` (options), `stageSolution_withLat` and `C43_irrelevant` (latitude). `C152_options`, `C152_latitude` state equality of outcomes, errors included. |
| C153 | `SamePrediction` and `SameRequest` list what is needed; `C153_needed` is equality of the outcomes. `C153_latitude` and `C153_options` carry it to results of `solve` with C152. |
| C154 | Data editing commutes with a shift of the times (`shift_editData`, errors included); the selection uses the reference time only for frequencies (`cnstitsel_name`). `C154_reference`, `C154_constituents`, `C154_harmonics` (with the bounds on the frequencies of C130), `C154_predictions` (`reconstruct` of a raw solution), `C154_fits`, `C154_misfit` (the misfits of the two analyses differ by no more than the drift of the speeds allows). |
| C155 | From the current (h, 0), which one-dimensional least squares and two-dimensional least squares fit with the same coefficients, turned by φ (C106). `C155_line`. |
| C156 | The contribution of a constituent is two rotating vectors; geometric sums with |cis x - 1| = 2 |sin(pi x)|; the hourly bound from Jordan's inequality and the catalogue's frequencies. `C156_mean`, `C156_hourly`, `C156_limit`. |
| C157 | The rotating parts of an ellipse turned by the harmonic; the harmonic runs once round its circle in 1/f hours. `C157_period`; `C157_nodal` with nodal corrections at the reference time. |
| C158 | From C127 (the ellipse as averages of the data against the harmonic) and geometric sums. `C158_leak`. `C158_beside`: the same bound for the error when the foreign tide comes on top of any tide of the model, from `C141_error`. |
| C159 | The contributions are real parts of two turning numbers of fixed modulus; their relative phase runs once round in a beat period. `C159_envelope`, `C159_neaps`. |
| C160 | Adding a line to the best curve cannot help, so the residual is orthogonal to lines (`perp_of_best'`), and the tide is by assumption. `C160_normal`, `C160_mean`, `C160_line`. |

Nothing is declared not applicable.

Concrete cases meeting the hypotheses stand beside the theorems, in the `*Example*`/`*Run*` files (complete runs of `solve` with the ideal numerics) and in
`Props/CasesA.lean`, `Props/CasesB.lean` (one `example` per theorem, naming it).

## 4. Testing the theorems against wrong programs

`seeded/mutants.py` lists wrong versions of the model (each a realistic slip in the code). `tools/mutate.py` copies the project outside `/verif`, applies
one edit, rebuilds, replaces broken proofs by `sorry` and asks which manifest theorems now depend on it. `seeded/LOG.jsonl` has a line per attempt: definition,
edit, claim it breaks, theorems that failed, theorems tightened because of it.

A theorem whose *proof script* happens to be robust to the edit but whose statement is still false cannot pass; a theorem listed in `failed` may also fail only because its
proof needs adapting. The log's interest is in the reverse direction: an edit breaking a claim that leaves all its theorems standing.

## 5. Disagreements between code and documentation found on the way

See the claims marked partial above. In addition:

* `order_constit` as a sequence duplicates repeated names (C34_duplicates).
* `method` other than 'ols' silently selects the robust fit; `MC_n` is accepted and ignored (always 200 realisations).
* approximate inference with two inferred constituents for one reference raises ValueError.
* `robustfit`: `maxit=0` raises UnboundLocalError; rank-deficient or square systems raise IndexError (`residuals[0]` of an empty array).
* circular ellipses give NaN intervals (0/0 in `ut_linci`).
* Monte-Carlo intervals with inference raise NotImplementedError only after the whole fit (C54).
* Linearised intervals with inference: when some fitted constituents are references and others are not, the variances of all fitted constituents are read from wrong
  columns of the covariance (C91); the intervals of inferred constituents carry a factor 1/√2 too much (C90).
* `str(Bunch())` raises ValueError; `loadbunch` does not mask a scalar NaN; `convert_unicode_arrays` does not strip strings inside object arrays (C86, C87, C89).
* a list of non-reference constituents that is empty (everything fitted is a reference) raises IndexError unless `nodal=False` and `phase='raw'`.
* the reference time is the midpoint of first and last sample *as given*, so an unsorted record is analysed about another time (C79).
