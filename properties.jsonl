{"id": "C01", "title": "reconstruct of an elevation solution is the least-squares best tidal curve", "statement": "For a scalar series solved with method='ols' (no inference or exact inference, every constituent kept), reconstruct at the sample times using all constituents has a sum of squared misfits to u that is no larger than that of any other curve of the form mean + slope*(t-tref) + sum_k amplitude_k*(nodally corrected cosine of constituent k with any phase), the slope being absent when trend=False and inferred constituents being tied to their reference.", "quantifier": "every series u, every set of times, every constituent list, every option combination, every competing curve", "why_tests_cant": "A test can compare against a handful of competing curves; optimality quantifies over all of them and all data.", "anchors": ["utide/_solve.py: _solv1", "utide/_reconstruct.py: _reconstruct", "utide/ellipse_params.py: ut_cs2cep"]}
{"id": "C02", "title": "reconstruct of a current solution is the least-squares best tidal current", "statement": "As C01 for a vector series (u, v): the reconstructed (u, v) minimises the total squared misfit over all tidal-ellipse signals with the selected constituents; in particular the ellipse parameters Lsmaj, Lsmin, theta, g lose nothing of the fitted rotary coefficients, whatever branch of the angles is taken.", "quantifier": "every vector series, times, constituents, options, competing tidal current", "why_tests_cant": "The angle wrap-arounds (theta mod 180, g mod 360) have infinitely many branch combinations.", "anchors": ["utide/_solve.py: _solv1", "utide/_reconstruct.py: _reconstruct", "utide/ellipse_params.py: ut_cs2cep"]}
{"id": "C03", "title": "a purely tidal record is reproduced exactly", "statement": "If the input series is exactly a tidal curve of the selected constituents (plus mean, plus trend if trend=True), then reconstruct at the sample times with all constituents returns the input values, for scalar and vector series, even when the constituents cannot be separated by the record (rank-deficient model).", "quantifier": "all times, all amplitudes and phases, all constituent lists including inseparable ones", "why_tests_cant": "The round trip in the test-suite is one M2 tide on one time axis.", "anchors": ["utide/_solve.py: _solv1", "utide/_reconstruct.py: _reconstruct"]}
{"id": "C04", "title": "known amplitudes and phases are recovered", "statement": "If the record separates the chosen constituents (the model columns are linearly independent) and the series is mean + slope*(t-tref) + sum_k A_k*Re(E_k(t)*exp(-i g_k)) with A_k >= 0, solve returns A_k, the phase g_k (mod 360, where A_k > 0), the mean and the slope; for currents it returns Lsmaj, Lsmin and the (theta, g) pair up to the 180 degree ambiguity.", "quantifier": "all amplitudes, phases, means, slopes, constituent lists and times with independent columns", "why_tests_cant": "Exact recovery is an infinite family of identities; tests check one constituent to four decimals.", "anchors": ["utide/_solve.py: _solv1", "utide/ellipse_params.py: ut_cs2cep"]}
{"id": "C05", "title": "changing the units of the series scales the answer", "statement": "Multiplying u (and v) by a positive constant c multiplies A, Lsmaj, Lsmin, mean, slope by c and leaves g, theta, PE and the selected constituents unchanged, and also their order unless they are ranked by SNR; multiplying a scalar series by -1 leaves A unchanged and shifts every phase with A > 0 by 180 degrees.", "quantifier": "every series, every c, every option combination with method='ols'", "why_tests_cant": "Metamorphic relation over all inputs and scale factors.", "anchors": ["utide/_solve.py: _solv1", "utide/ellipse_params.py: ut_cs2cep", "utide/diagnostics.py: _PE"]}
{"id": "C06", "title": "a constant offset only moves the mean, a linear drift only moves the slope", "statement": "With independent model columns, adding a constant to u changes mean by that constant and no constituent; adding b*(t-tref) with trend=True changes slope by b and nothing else.", "quantifier": "every series, offset, drift and times with independent model columns", "why_tests_cant": "Metamorphic relation over all inputs.", "anchors": ["utide/_solve.py: _solv1"]}
{"id": "C07", "title": "a scalar series and a vector series with v = 0 give the same tide", "statement": "solve(t, u, 0) returns Lsmaj = A, Lsmin = 0, theta = 0 and the same g, umean, uslope as solve(t, u), with vmean = vslope = 0. Robust fits too, with the same weights.", "quantifier": "every u, times, constituent list", "why_tests_cant": "Agreement of the two code paths for all data.", "anchors": ["utide/_solve.py: _solv1", "utide/ellipse_params.py: ut_cs2cep"]}
{"id": "C08", "title": "rotating the coordinate axes rotates only the ellipse orientation", "statement": "Rotating (u, v) by an angle phi leaves Lsmaj and Lsmin of every constituent unchanged and adds phi to theta modulo 180 (g changing by a multiple of 180 accordingly) unless the ellipse is a circle, for which theta and g are determined only in combination.", "quantifier": "every vector series and every angle", "why_tests_cant": "Metamorphic relation over a continuum of angles.", "anchors": ["utide/_solve.py: _solv1", "utide/ellipse_params.py: ut_cs2cep"]}
{"id": "C09", "title": "ranges of the returned ellipse parameters", "statement": "Every returned constituent has A >= 0 and 0 <= g < 360 (scalar) or Lsmaj >= |Lsmin| and 0 <= theta < 180 and 0 <= g < 360 (vector), including inferred constituents.", "quantifier": "every input for which solve returns", "why_tests_cant": "Must hold for every input, including degenerate (zero-amplitude) ones.", "anchors": ["utide/ellipse_params.py: ut_cs2cep", "utide/_solve.py: _solv1"]}
{"id": "C10", "title": "ellipse parameters mean what the documentation says", "statement": "For cosine/sine coefficients (Xu, Yu, Xv, Yv), the current traced over one cycle has greatest speed Lsmaj and least speed |Lsmin|, it points along +theta with speed Lsmaj at phase g, and it rotates counter-clockwise iff Lsmin > 0.", "quantifier": "all coefficient quadruples and all phases of the cycle", "why_tests_cant": "Extremum over a continuous cycle for all coefficients.", "anchors": ["utide/ellipse_params.py: ut_cs2cep"]}
{"id": "C11", "title": "inferred constituents keep the prescribed ratio and phase offset", "statement": "With infer given for a scalar series, each inferred constituent's amplitude is |amp_ratio| times its own reference's amplitude and its phase is the reference phase minus phase_offset (mod 360, non-negative ratio), the pairing being the one the caller wrote even when one reference serves several inferred constituents or references are interleaved.", "quantifier": "every inference specification, series and times with a real least-squares solution", "why_tests_cant": "Pairing must hold for every arrangement of names.", "anchors": ["utide/_solve.py: _solv1", "utide/constituent_selection.py: ut_cnstitsel"]}
{"id": "C12", "title": "layout of names with inference", "statement": "coef.name lists the non-reference constituents, then each distinct reference once in order of first appearance, then the inferred constituents grouped by reference; name, aux.frq, aux.lind all have length nNR+nR+nI before re-ordering; references and inferred constituents never also appear as non-reference constituents.", "quantifier": "every constituent list and inference specification", "why_tests_cant": "All arrangements of names.", "anchors": ["utide/constituent_selection.py: ut_cnstitsel"]}
{"id": "C13", "title": "approximate inference", "statement": "infer.approximate=True is documented as 'use approximate method': an approximate correction of the reference for the inferred constituents. The fitted reference coefficients should depend on amp_ratios and phase_offsets.", "quantifier": "every inference specification with approximate=True", "why_tests_cant": "A statement about dependence on all parameter values.", "anchors": ["utide/_solve.py: _solv1 (lines 278-293)"]}
{"id": "C14", "title": "inference options are validated", "statement": "An infer option lacking a required key, with differing numbers of inferred and reference names, or with amp_ratios/phase_offsets of the wrong length (N scalar, 2N vector) is rejected with ValueError before any computation, and a complete one, given as dict or Bunch, is accepted.", "quantifier": "every infer dictionary", "why_tests_cant": "All key subsets and lengths.", "anchors": ["utide/_solve.py: validate_infer"]}
{"id": "C15", "title": "automatic constituent selection follows the Rayleigh criterion", "statement": "With constit='auto' (no inference) coef contains exactly those catalogue constituents whose frequency separation df from their comparison constituent is at least Rayleigh_min/(record length in hours), each once; Z0 and constituents without a comparison constituent are never chosen when Rayleigh_min > 0.", "quantifier": "every record length and Rayleigh_min", "why_tests_cant": "All thresholds.", "anchors": ["utide/constituent_selection.py: ut_cnstitsel", "utide/_solve.py: _solv1"]}
{"id": "C16", "title": "longer records and weaker criteria only add constituents", "statement": "If the record length does not decrease and Rayleigh_min does not increase, the automatically selected set can only grow.", "quantifier": "all pairs of record lengths and criteria", "why_tests_cant": "Monotonicity over all pairs.", "anchors": ["utide/constituent_selection.py: ut_cnstitsel"]}
{"id": "C17", "title": "an explicit constituent list is honoured", "statement": "With constit given as a list (no inference, order_constit equal to that list) coef.name is exactly that list; an unknown name makes solve raise KeyError and return nothing.", "quantifier": "every list of names", "why_tests_cant": "All lists.", "anchors": ["utide/constituent_selection.py: ut_cnstitsel", "utide/_solve.py: _reorder"]}
{"id": "C18", "title": "name, frequency and catalogue index stay aligned", "statement": "In every coef returned by solve, for every position i, aux.lind[i] is the catalogue index of name[i] and aux.frq[i] is that constituent's frequency at the reference time, whatever order_constit, constit and infer were.", "quantifier": "every successful solve", "why_tests_cant": "All option combinations and orders.", "anchors": ["utide/constituent_selection.py: ut_cnstitsel", "utide/_solve.py: _reorder"]}
{"id": "C19", "title": "misspelt options are rejected", "statement": "solve rejects its keywords with KeyError iff some keyword is not a documented option name (the names strict and self, which collide with internal parameters, give TypeError instead), before looking at the data; otherwise unspecified options take the documented defaults and specified ones the given value.", "quantifier": "every keyword dictionary", "why_tests_cant": "All key sets.", "anchors": ["utide/_solve.py: _process_opts", "utide/utilities.py: Bunch.update_values"]}
{"id": "C20", "title": "nodal and phase options select the documented correction mode", "statement": "nodal in {True, False, 'linear_time'} and phase in {'Greenwich', 'raw', 'linear_time'} each independently select exact, none or reference-time corrections in the fit, and reconstruct uses the same mode as the solve that produced coef.", "quantifier": "all nine combinations, any other options", "why_tests_cant": "Cross product with all data.", "anchors": ["utide/_solve.py: _translate_opts", "utide/_solve.py: _slvinit", "utide/_solve.py: _solv1", "utide/_reconstruct.py: _reconstruct"]}
{"id": "C21", "title": "conf_int and order_constit are validated", "statement": "conf_int other than 'linear', 'MC', 'none' raises ValueError; order_constit='SNR' with conf_int='none' raises ValueError, as does any other unknown string; None means 'PE'.", "quantifier": "every option value", "why_tests_cant": "All strings.", "anchors": ["utide/_solve.py: _translate_opts", "utide/_solve.py: validate_order_constit"]}
{"id": "C22", "title": "calls do not disturb the defaults or one another", "statement": "solve never changes the default option table, so a sequence of calls gives each call the same result as if it were the first; the caller's option values are not modified, except that a caller-supplied infer Bunch without 'approximate' gains approximate=False.", "quantifier": "every sequence of calls", "why_tests_cant": "All histories.", "anchors": ["utide/_solve.py: _process_opts, default_opts, validate_infer"]}
{"id": "C23", "title": "verbose=False is silent", "statement": "solve(..., verbose=False) and reconstruct(..., verbose=False) print nothing; with verbose true a successful solve prints exactly 'solve: matrix prep ... solution ... done.' and reconstruct 'prep/calcs ... done.'.", "quantifier": "every call", "why_tests_cant": "All inputs and options.", "anchors": ["utide/_solve.py: _solv1", "utide/_reconstruct.py: _reconstruct"]}
{"id": "C24", "title": "missing latitude and mismatched shapes are rejected", "statement": "solve raises ValueError when lat is None, when t and u are not 1-D of equal length, or when v has a different shape; no result is returned.", "quantifier": "every argument shape", "why_tests_cant": "All shapes.", "anchors": ["utide/_solve.py: _slvinit"]}
{"id": "C25", "title": "the epoch only relabels time", "statement": "Numeric times t with epoch E denote the instants E + t days: normalised time for (t, epoch=E), for the datetimes E + t days with epoch None, for t + ordinal(E) with 'python' and for t + ordinal(E) + 366 with 'matlab' all coincide.", "quantifier": "every epoch date and every time", "why_tests_cant": "All dates and offsets.", "anchors": ["utide/_time_conversion.py: _normalize_time, _date2num, _python_gregorian_datenum"]}
{"id": "C26", "title": "datetimes map to proleptic Gregorian day numbers", "statement": "The normalised time of midnight of a calendar date is the number of days from 0000-12-31 (1 for 0001-01-01, one more for each following calendar day), and fractions of a day are exact to the millisecond.", "quantifier": "every calendar date", "why_tests_cant": "All dates, including leap and century rules.", "anchors": ["utide/_time_conversion.py: _DAY_TO_GREGORIAN_EPOCH, _date2num"]}
{"id": "C27", "title": "numeric times without an epoch", "statement": "docs/strategy.rst: 'The default is epoch=python' - numeric t without epoch should be taken as days since 0000-12-31.", "quantifier": "every numeric time array", "why_tests_cant": "All times.", "anchors": ["utide/_time_conversion.py: _normalize_time", "docs/strategy.rst"]}
{"id": "C28", "title": "unusable time inputs are rejected", "statement": "With an epoch, an array of unsigned-integer, boolean, string or datetime type raises ValueError, and integer or floating arrays are accepted.", "quantifier": "every time dtype and every epoch value", "why_tests_cant": "All dtypes and epochs.", "anchors": ["utide/_time_conversion.py: _normalize_time"]}
{"id": "C29", "title": "missing values are dropped row by row", "statement": "Samples whose time is NaN have no effect whatever on solve; the fit uses exactly the samples in which t and all of u (and v) are finite and unmasked, in order, with t, u, v of the same sample kept together.", "quantifier": "every placement of NaN, infinite and masked entries", "why_tests_cant": "Exponentially many placements.", "anchors": ["utide/_solve.py: _slvinit"]}
{"id": "C30", "title": "masked times count as missing", "statement": "docs/strategy.rst: solve's and reconstruct's t accept masked arrays to indicate missing values: a masked time should be treated exactly like a NaN time.", "quantifier": "every masked time array", "why_tests_cant": "All masks.", "anchors": ["utide/_solve.py: _slvinit", "utide/_reconstruct.py: reconstruct", "utide/_time_conversion.py: _normalize_time", "docs/strategy.rst"]}
{"id": "C31", "title": "reconstruct is pointwise with NaN at invalid times", "statement": "The output has the length of t, is NaN exactly at the invalid times, and each other value depends only on its own time: reconstructing a concatenation of time arrays is the concatenation of the reconstructions.", "quantifier": "every time array and every coef", "why_tests_cant": "All arrays and splits.", "anchors": ["utide/_reconstruct.py: reconstruct, _reconstruct"]}
{"id": "C32", "title": "percent energy", "statement": "If some amplitude is non-zero, PE of every constituent lies in [0, 100], they sum to 100, and PE is unchanged by a change of units.", "quantifier": "every coef", "why_tests_cant": "Sum over any number of constituents.", "anchors": ["utide/diagnostics.py: _PE"]}
{"id": "C33", "title": "order_constit re-orders every result array consistently", "statement": "Results are sorted by decreasing PE, decreasing SNR or increasing frequency, as requested; every per-constituent array (name, A, g, ellipse parameters, their confidence intervals, PE, SNR, frq, lind) is permuted in the same way, so no constituent's numbers change owner; with an explicit sequence the result follows that sequence and a name not in the solution raises ValueError.", "quantifier": "every solution and every requested order", "why_tests_cant": "All permutations.", "anchors": ["utide/_solve.py: _reorder", "utide/diagnostics.py: ut_diagn"]}
{"id": "C34", "title": "an explicit order does not lose constituents", "statement": "Giving order_constit as a sequence only orders the result; it never drops or duplicates fitted constituents.", "quantifier": "every order sequence accepted by solve", "why_tests_cant": "All sequences.", "anchors": ["utide/_solve.py: _reorder, validate_order_constit"]}
{"id": "C35", "title": "the reconstruction does not depend on the order of constituents", "statement": "For any permutation of the constituents of coef, reconstruct gives the same series, for the same thresholds.", "quantifier": "every coef, permutation, time and threshold", "why_tests_cant": "All permutations.", "anchors": ["utide/_reconstruct.py: _reconstruct", "utide/_solve.py: _reorder"]}
{"id": "C36", "title": "reconstruct uses exactly the requested constituents", "statement": "With constit given, exactly the constituents of coef named there (names absent from coef are ignored); else with both thresholds 0 or no confidence intervals, all; else exactly those with SNR >= min_SNR and PE >= min_PE, where SNR and PE are the values solve reports (for a solution that keeps all fitted constituents); raising the thresholds never adds a constituent unless both become 0, which switches them off; with nothing selected the output is mean (+ trend).", "quantifier": "every coef and threshold pair", "why_tests_cant": "All thresholds and coefs, including infinite and NaN SNR.", "anchors": ["utide/_reconstruct.py: _reconstruct", "utide/diagnostics.py: _PE, _SNR"]}
{"id": "C37", "title": "the diagnostics table restates the solution", "statement": "coef.diagn is always sorted by decreasing PE and, for a solution that keeps all fitted constituents, lists the same constituents with the same PE and SNR as coef.name, coef.PE, coef.SNR; it is absent exactly when conf_int='none'.", "quantifier": "every solution", "why_tests_cant": "All solutions and orders.", "anchors": ["utide/diagnostics.py: ut_diagn", "utide/_solve.py: _solv1"]}
{"id": "C38", "title": "astronomical rates are the exact derivatives", "statement": "The second result of the astronomical argument routine is the exact time derivative of the first (modulo whole cycles) at every time.", "quantifier": "every time", "why_tests_cant": "A derivative identity over the reals.", "anchors": ["utide/astronomy.py: ut_astron"]}
{"id": "C39", "title": "shallow-water constituents are combinations of their parents", "statement": "Frequency, astronomical argument and nodal phase of every compound constituent are the catalogue's integer-weighted sums of those of its parents, hence its phase factor is the product of the parents' phase factors to those powers and its nodal amplitude the product of theirs; the result does not depend on the order in which the catalogue is processed.", "quantifier": "every compound constituent, time, latitude", "why_tests_cant": "All times; order independence.", "anchors": ["utide/harmonics.py: linearized_freqs, FUV"]}
{"id": "C40", "title": "compound constituents have continuous phase", "statement": "The basis function of every constituent with exact Greenwich phase depends on the astronomical angles only through whole-cycle-invariant phases: shifting any parent's argument by a whole cycle does not change it.", "quantifier": "every constituent of the catalogue and every time", "why_tests_cant": "All times.", "anchors": ["utide/harmonics.py: FUV", "utide/data/ut_constants.npz: shallow.coef (M7 = 3.5 M2)"]}
{"id": "C41", "title": "linear_time corrections agree with the exact ones at the reference time", "statement": "phase='linear_time' and nodal='linear_time' give the same factors as the exact modes at the reference time; the linear-time phase of every non-compound constituent is the first-order expansion of the exact phase there.", "quantifier": "every constituent, latitude and reference time", "why_tests_cant": "Derivative statement for every time.", "anchors": ["utide/harmonics.py: FUV, linearized_freqs", "utide/astronomy.py: ut_astron"]}
{"id": "C42", "title": "raw phases are pure sinusoids", "statement": "With nodal=False and phase='raw' the basis function of a constituent of frequency f is exp(2 pi i 24 f (t - tref)): unit modulus, 1 at tref, multiplicative in time.", "quantifier": "every time and frequency", "why_tests_cant": "All times.", "anchors": ["utide/harmonics.py: ut_E"]}
{"id": "C43", "title": "latitude handling", "statement": "Nodal corrections are defined for every latitude from -90 to 90; latitudes within 5 degrees of the equator are treated as 5 degrees on the same side; latitude is irrelevant when nodal=False.", "quantifier": "every latitude", "why_tests_cant": "A continuum of latitudes.", "anchors": ["utide/harmonics.py: FUV"]}
{"id": "C44", "title": "the two raw-phase code paths agree", "statement": "With phase='raw', the shortcut used when nodal=False and the general routine give the same astronomical argument for constituents produced by the selection step.", "quantifier": "every constituent and time", "why_tests_cant": "All times and catalogue entries.", "anchors": ["utide/harmonics.py: ut_E, FUV", "utide/constituent_selection.py: ut_cnstitsel"]}
{"id": "C45", "title": "robust weights are legitimate weights", "statement": "Every robust weight function that can be applied to a residual array gives weights in [0, 1], even in the residual, 1 at zero residual, and non-increasing in its size.", "quantifier": "every residual", "why_tests_cant": "A continuum of residuals.", "anchors": ["utide/robustfit.py: andrews, bisquare, cauchy, fair, huber, logistic, ols, talwar, welsch"]}
{"id": "C46", "title": "all documented weight functions are usable", "statement": "Each of the nine named weight functions accepts an array of residuals of any length.", "quantifier": "every weight function and residual array", "why_tests_cant": "All arrays.", "anchors": ["utide/robustfit.py: wfuncdict, andrews, huber, logistic"]}
{"id": "C47", "title": "the robust iteration terminates and keeps the best fit", "statement": "robustfit performs at most maxit least-squares solutions, reports 1 <= iterations <= maxit, and its weighted mean-square misfit is the smallest of all fits it accepted; it stops with the last fit when the improvement is below tol, and with the previous one when the fit got worse.", "quantifier": "every sequence of least-squares results, tol, maxit >= 1", "why_tests_cant": "All iteration histories.", "anchors": ["utide/robustfit.py: robustfit"]}
{"id": "C48", "title": "the returned weights belong to the returned coefficients", "statement": "rf.b is the least-squares solution of the problem weighted with rf.w, and rf.rms_resid is the rms of y - X rf.b.", "quantifier": "every history of the iteration", "why_tests_cant": "All histories, including those that stop at maxit.", "anchors": ["utide/robustfit.py: robustfit"]}
{"id": "C49", "title": "robust fitting with the 'ols' weights is ordinary least squares", "statement": "robustfit(weight_function='ols') returns the ordinary least-squares coefficients with unit weights.", "quantifier": "every problem", "why_tests_cant": "All problems.", "anchors": ["utide/robustfit.py: robustfit, ols"]}
{"id": "C50", "title": "linear confidence intervals are first-order error propagation", "statement": "With conf_int='linear', A_ci and g_ci (Lsmaj_ci, Lsmin_ci, theta_ci, g_ci for currents) are 1.96 times the first-order propagated standard error of the corresponding ellipse parameter, i.e. the root of the sum over cosine/sine coefficients of (partial derivative times standard deviation) squared.", "quantifier": "all coefficients away from degenerate ellipses and all standard deviations", "why_tests_cant": "Partial-derivative identities over R^4.", "anchors": ["utide/confidence.py: ut_linci, _confidence"]}
{"id": "C51", "title": "coloured-noise scaling preserves residual power", "statement": "For a scalar series with white=False the cosine and sine variances are rescaled so that they sum to the residual power in the constituent's band, keeping their ratio.", "quantifier": "all variances and spectra", "why_tests_cant": "All values.", "anchors": ["utide/confidence.py: _confidence"]}
{"id": "C52", "title": "confidence intervals of currents do not depend on the axes' names", "statement": "Exchanging the roles of the two velocity components (a relabelling of axes) does not change Lsmaj_ci and Lsmin_ci.", "quantifier": "every vector series with conf_int='linear'", "why_tests_cant": "Metamorphic relation over all data.", "anchors": ["utide/confidence.py: _confidence (lines 247-255)"]}
{"id": "C53", "title": "confidence intervals are non-negative and one per constituent", "statement": "Whenever they are numbers, all *_ci values are >= 0 and each array has one entry per constituent, inferred ones included.", "quantifier": "every solution with confidence intervals", "why_tests_cant": "All solutions.", "anchors": ["utide/confidence.py: _confidence, ut_linci"]}
{"id": "C54", "title": "Monte-Carlo intervals with inference are refused", "statement": "conf_int='MC' together with infer raises NotImplementedError and returns nothing.", "quantifier": "every data set and inference specification", "why_tests_cant": "All data.", "anchors": ["utide/confidence.py: _confidence"]}
{"id": "C55", "title": "phase clustering", "statement": "Before Monte-Carlo spreads are computed, angles are moved by whole turns to within half a turn of the first one, which is unchanged.", "quantifier": "every list of angles and every positive period", "why_tests_cant": "All real angles.", "anchors": ["utide/confidence.py: cluster"]}
{"id": "C56", "title": "Monte-Carlo orientation spread respects the 180 degree ambiguity", "statement": "Orientations theta are equivalent modulo 180; equivalent samples should be treated alike when theta_ci is computed.", "quantifier": "every sample of orientations", "why_tests_cant": "All samples.", "anchors": ["utide/confidence.py: _confidence (line 345), cluster"]}
{"id": "C57", "title": "nearestSPD returns a symmetric matrix after a bounded number of adjustments", "statement": "nearestSPD returns after at most 101 adjustments; its result is symmetric whenever the adjustment loop converges; before adjustment it is the closest symmetric positive semidefinite matrix to its argument in the Frobenius norm.", "quantifier": "every square matrix and every outcome of the positive-definiteness test", "why_tests_cant": "All matrices, all loop histories.", "anchors": ["utide/confidence.py: nearestSPD, _is_PD"]}
{"id": "C58", "title": "band averages are averages of the right periodogram values", "statement": "Each band value lies between the least and greatest periodogram value used in that band, excludes the values nearest to constituent frequencies, and is linear in the periodogram; a band without usable values is NaN.", "quantifier": "every periodogram, frequency grid, constituent list", "why_tests_cant": "All grids.", "anchors": ["utide/periodogram.py: fbndavg"]}
{"id": "C59", "title": "band averages use only frequencies inside the band", "statement": "The value for the band [f0, f1] is the mean of the periodogram at frequencies between f0 and f1.", "quantifier": "every frequency grid", "why_tests_cant": "All grids.", "anchors": ["utide/periodogram.py: fbndavg"]}
{"id": "C60", "title": "the one-sided spectrum preserves variance", "statement": "For an evenly sampled real series of even length, the sum of the one-sided spectral density times the frequency step equals the window-weighted variance (Parseval), and the density is non-negative.", "quantifier": "every series, window and sampling rate", "why_tests_cant": "All series.", "anchors": ["utide/periodogram.py: _psd, band_psd"]}
{"id": "C61", "title": "co-spectrum is bounded by the auto-spectra", "statement": "For a vector series |Puv|^2 <= Puu*Pvv in every band, and Puu = Pvv = Puv when u = v (both for the FFT and the Lomb-Scargle branch).", "quantifier": "every vector series", "why_tests_cant": "All series.", "anchors": ["utide/periodogram.py: _psd, _ls_cross, fbndavg, band_psd"]}
{"id": "C62", "title": "noise bands are unambiguous and cover the catalogue", "statement": "The nine frequency bands are disjoint and increasing, and every catalogue constituent except Z0 lies in exactly one; a constituent outside all bands gets zero noise power.", "quantifier": "every frequency; every catalogue entry", "why_tests_cant": "All real frequencies.", "anchors": ["utide/periodogram.py: freq_bands", "utide/confidence.py: band_averaged_psd_by_constit"]}
{"id": "C63", "title": "Lomb-Scargle frequency grid", "statement": "No band contributes more than 500 frequencies; they are increasing within a band and taken from (or interpolated between) the record's Fourier frequencies.", "quantifier": "every time axis", "why_tests_cant": "All axes.", "anchors": ["utide/periodogram.py: _lomb_freqs"]}
{"id": "C64", "title": "Bunch.update_values never changes the set of keys", "statement": "update_values with strict raises KeyError iff an unknown key is given and then changes nothing; without strict unknown keys are ignored; in both cases later sources and keyword arguments take precedence and no key is added or removed.", "quantifier": "every Bunch and every sequence of sources", "why_tests_cant": "All dictionaries.", "anchors": ["utide/utilities.py: Bunch.update_values, _check_strict"]}
{"id": "C65", "title": "Bunch.update_None only fills gaps", "statement": "update_None changes only entries whose value is None, with the same strictness rule.", "quantifier": "every Bunch and every sequence of sources", "why_tests_cant": "All dictionaries.", "anchors": ["utide/utilities.py: Bunch.update_None"]}
{"id": "C66", "title": "Bunch attribute access is item access", "statement": "b.x = v followed by b['x'] gives v, and b.x equals b['x'] for every key that is not the name of a dict/Bunch method; a missing attribute raises AttributeError.", "quantifier": "every sequence of attribute and item assignments", "why_tests_cant": "All histories.", "anchors": ["utide/utilities.py: Bunch.__getattr__, __setattr__"]}
{"id": "C67", "title": "catalogue dictionaries are consistent", "statement": "constit_index_dict is a bijection between names and catalogue positions; cycles_per_hour and hours_per_cycle are keyed by the same names and are reciprocal (infinite period only for Z0).", "quantifier": "every catalogue name", "why_tests_cant": "Whole-table statement.", "anchors": ["utide/_ut_constants.py: constit_index_dict, cycles_per_hour, hours_per_cycle"]}
{"id": "C68", "title": "reference time and record length", "statement": "coef.aux.reftime is the midpoint between the first and last usable time (all valid times if these are evenly spaced, else the times with valid data); for increasing times it lies inside the record, and evenly spaced times are always recognised as such.", "quantifier": "every time axis and missing-value pattern", "why_tests_cant": "All axes.", "anchors": ["utide/_solve.py: _slvinit"]}
{"id": "C69", "title": "the robust solution solves the estimating equations of its weight function", "statement": "When robustfit stops before maxit, the returned coefficients satisfy sum_i w_i conj(X_ij) (y_i - (X b)_i) = 0 for every column j with the returned weights w, as iteratively reweighted least squares should.", "quantifier": "every problem, weight function and tuning constant", "why_tests_cant": "All problems; the fit multiplies rows by w, which minimises the residuals weighted with w squared.", "anchors": ["utide/robustfit.py: robustfit"]}
{"id": "C70", "title": "linearised intervals are those of textbook least squares", "statement": "With method='ols', conf_int='linear', white=True and no inference, the amplitude and phase (or ellipse) of each constituent are those of the best linear unbiased estimates of its cosine and sine coefficients, and each interval is 1.96 standard errors propagated to first order from the standard errors of these estimates, the noise variance being the least residual sum of squares over (samples - parameters).", "quantifier": "every record, scalar or vector, and every constituent", "why_tests_cant": "An optimality statement over all linear estimators and all data.", "anchors": ["utide/confidence.py: _confidence, ut_linci", "utide/_solve.py: _solv1"]}
{"id": "C71", "title": "asking for confidence intervals does not change the fit", "statement": "Two calls of solve whose options agree except for conf_int, white, MC_n and verbose return the same names, ellipses, mean, trend, frequencies, weights and (where both are given) percent energies, unless the order of constituents is by SNR.", "quantifier": "every pair of calls that return", "why_tests_cant": "A relation between two runs for all inputs.", "anchors": ["utide/_solve.py: _solv1, _process_opts, _reorder", "utide/confidence.py: _confidence"]}
{"id": "C72", "title": "intervals exist exactly when the data over-determine the model", "statement": "For ordinary least squares without inference: if the sample times separate the constituents and there are more samples than parameters, the call with intervals returns (white noise floor, or linear with coloured noise and even sampling); if a call returns intervals, the times separate the constituents and there are more samples than parameters.", "quantifier": "every record and option set", "why_tests_cant": "All records, including rank-deficient ones.", "anchors": ["utide/confidence.py: _confidence", "utide/_solve.py: _solv1"]}
{"id": "C73", "title": "basis functions are the textbook tidal harmonics", "statement": "The basis function of every constituent except M7 is: for a primary constituent the equilibrium argument built from the mean longitudes of moon, sun, perigee, node and solar perigee, modulated by 1 plus the sum of its satellites (ratio, latitude factor outside 5 degrees of the equator, phase), each taken at the time the nodal and phase modes say; for a compound the product of its parents' functions to the catalogue powers. M7 is a square root of the seventh power of M2's.", "quantifier": "every constituent, time, latitude, reference time and mode", "why_tests_cant": "All times and latitudes.", "anchors": ["utide/harmonics.py: FUV, ut_E, linearized_freqs", "utide/astronomy.py: ut_astron"]}
{"id": "C74", "title": "documented option values are accepted in every combination", "statement": "Any combination of documented values of the options (infer not used) passes option processing.", "quantifier": "every option dictionary with documented names and values", "why_tests_cant": "The cross product of all options, with arbitrary numbers, lists and robust_kw.", "anchors": ["utide/_solve.py: _process_opts, _translate_opts, validate_order_constit, _slvinit"]}
{"id": "C75", "title": "sound calls return", "statement": "A call of solve by ordinary least squares, without confidence intervals and inference, with documented options, known constituents (a non-empty list or 'auto'), arrays of equal 1-D shape, readable times, at least one usable sample, a latitude other than 0 (unless nodal=False) and a record of positive length (if a trend is fitted) returns a result.", "quantifier": "every record, option set and constituent list", "why_tests_cant": "Totality over all inputs.", "anchors": ["utide/_solve.py: solve, _solv1, _slvinit", "utide/constituent_selection.py: ut_cnstitsel", "utide/harmonics.py: ut_E"]}
{"id": "C76", "title": "the analysis is additive", "statement": "With method='ols' and the same times, gaps and options, solving for the sum of two records gives, constituent by constituent, the sum of the two solutions (A cos g and A sin g, or the two rotating components of the ellipse), of the means and of the slopes.", "quantifier": "every pair of records with the same gaps, every option set, also rank-deficient problems", "why_tests_cant": "A relation between three runs for all inputs.", "anchors": ["utide/_solve.py: solve, _solv1", "utide/ellipse_params.py: ut_cs2cep"]}
{"id": "C77", "title": "detiding is complete and the analysis idempotent", "statement": "With method='ols' and exact inference or none: if the reconstruction of everything is subtracted from the record, solve finds zero amplitudes, zero mean and zero slope in what is left; if the record is replaced by the reconstruction, solve returns the same coefficients again.", "quantifier": "every record and option set", "why_tests_cant": "Three chained calls for all inputs.", "anchors": ["utide/_solve.py: solve, _solv1", "utide/_reconstruct.py: reconstruct, _reconstruct"]}
{"id": "C78", "title": "nothing of the model is left in the residual", "statement": "With method='ols' and exact inference or none, the residual (record minus reconstruction of everything) has zero mean, is uncorrelated with time if a trend was fitted and with the harmonics of every constituent not tied by inference, and the sum of squares of the samples is that of the reconstruction plus that of the residual.", "quantifier": "every record and option set", "why_tests_cant": "All inputs, including rank-deficient problems.", "anchors": ["utide/_solve.py: solve, _solv1", "utide/_reconstruct.py: reconstruct, _reconstruct"]}
{"id": "C79", "title": "the order of the samples does not matter", "statement": "With method='ols', giving the same samples (time and values) in another order changes neither the ellipse of any constituent nor the mean level and trend as a function of time, provided the same constituents are analysed and the times separate them.", "quantifier": "every record, every permutation of its rows, every option set", "why_tests_cant": "All permutations. False for phase='raw' or the linearised times: the reference time is the middle between the first and the last sample in the order given.", "anchors": ["utide/_solve.py: solve, _slvinit, _solv1", "utide/harmonics.py: ut_E"]}
{"id": "C80", "title": "a prediction stays within the amplitudes", "statement": "reconstruct never departs from mean level and trend by more than the sum, over the constituents it uses, of nodal factor times major semi-axis (or amplitude); with nodal=False by more than the sum of the amplitudes.", "quantifier": "every coefficient set returned by solve, every time", "why_tests_cant": "All times, including those far outside the record.", "anchors": ["utide/_reconstruct.py: reconstruct, _reconstruct", "utide/harmonics.py: ut_E, FUV"]}
{"id": "C81", "title": "a robust analysis follows the units and added tides", "statement": "With method='robust', multiplying the record by any non-zero number and adding to it any curve of the model (mean, trend, tides of the analysed constituents) gives the same weights and number of iterations, and coefficients multiplied by the number plus those of the curve; the rms residual is multiplied by its modulus. robustfit raises an error for both records or for neither.", "quantifier": "every record, weight function and option set; every factor, every added curve", "why_tests_cant": "A relation between two iterative fits for all inputs.", "anchors": ["utide/robustfit.py: robustfit, sigma_hat, r_normed", "utide/_solve.py: solve, _solv1"]}
{"id": "C82", "title": "weights lie between 0 and 1", "statement": "coef.weights has one entry for each usable sample (finite time, unmasked finite data), every entry lies in [0, 1], and all are 1 for method='ols'.", "quantifier": "every call of solve that returns", "why_tests_cant": "All inputs and weight functions.", "anchors": ["utide/robustfit.py: robustfit, bisquare, cauchy, fair, ols, talwar, welsch", "utide/_solve.py: _solv1"]}
{"id": "C83", "title": "the signal-to-noise ratio means what the documentation says", "statement": "coef.SNR exists exactly when intervals were asked for, has one entry per constituent, and is A**2/(A_ci/1.96)**2 (for currents (Lsmaj**2+Lsmin**2)/((Lsmaj_ci/1.96)**2+(Lsmin_ci/1.96)**2)) of the returned arrays, whatever the order of the constituents; a zero interval gives inf, a NaN interval NaN.", "quantifier": "every call of solve that returns, every order", "why_tests_cant": "Tests compare one stored array; the relation between the four returned arrays holds for all inputs.", "anchors": ["utide/diagnostics.py: _SNR, ut_diagn", "utide/_solve.py: _solv1, _reorder"]}
{"id": "C84", "title": "linear confidence intervals follow the units", "statement": "With conf_int='linear' (white or coloured noise floor, with or without inference, method='ols' or robust), multiplying the record by k > 0 multiplies A_ci, Lsmaj_ci and Lsmin_ci by k and leaves g_ci, theta_ci, SNR, PE, the diagnostics table and the order of the constituents unchanged, also for order_constit='SNR'.", "quantifier": "every record, every positive factor, every option set with linear intervals", "why_tests_cant": "A relation between two runs through spectra, covariances and error propagation, for all inputs.", "anchors": ["utide/confidence.py: _confidence, ut_linci, band_averaged_psd_by_constit", "utide/periodogram.py: band_psd, _psd, _psd_lomb", "utide/diagnostics.py: _SNR", "utide/_solve.py: solve"]}
{"id": "C85", "title": "an offset or drift does not change the intervals", "statement": "With method='ols' and constituents the record separates, adding a constant (and, with trend=True, a linear drift) to the record leaves every ellipse parameter, every confidence interval (linear or Monte-Carlo with the same random numbers, white or coloured noise, with or without exact inference), PE, SNR, diagnostics and the order of the constituents unchanged.", "quantifier": "every record, every offset and drift, every option set with method='ols'", "why_tests_cant": "varMSM and the pseudo-variance are computed from the raw record, mean included; that they do not depend on it follows from orthogonality of the residual for all inputs.", "anchors": ["utide/confidence.py: _confidence lines 193-200", "utide/_solve.py: _solv1", "utide/diagnostics.py: ut_diagn"]}
{"id": "C86", "title": "printing a Bunch lists every entry once, in the order of the keys", "statement": "str(b) of a Bunch with at least one entry has one line for each entry, sorted by key whatever the order of insertion, with the full key and the full text of the value (or its type with types=True); the columns are as wide as the longest key and value but at most 20 and 40. An empty Bunch, or one holding an empty Bunch, cannot be printed (ValueError).", "quantifier": "every Bunch with string keys", "why_tests_cant": "All contents, key lengths and insertion orders.", "anchors": ["utide/utilities.py: Bunch.formatted, Bunch.__str__"]}
{"id": "C87", "title": "loadbunch returns what is in the file", "statement": "For a .mat or .npz file loadbunch returns a Bunch with exactly the variables whose names do not begin with '__', in their order; structures become nested Bunches with the same fields; a single element is returned as such, any other array with the same elements, order and dtype without the dimensions of length 1; exactly the non-finite elements of float arrays are masked (none with masked=False). Other file names raise ValueError.", "quantifier": "every file content, any depth of nesting", "why_tests_cant": "Arbitrary nesting and contents.", "anchors": ["utide/utilities.py: loadbunch, _structured_to_bunch, _crunch"]}
{"id": "C88", "title": "showmatbunch lists every item once", "statement": "showmatbunch(b) prints one line for every item of the Bunch and of the Bunches nested in it, named by the keys joined with dots, sorted by that name, with the string itself if shorter than 50 characters; a Bunch without items raises ValueError.", "quantifier": "every nested Bunch", "why_tests_cant": "Arbitrary nesting and contents.", "anchors": ["utide/utilities.py: showmatbunch, _showmatbunch"]}
{"id": "C89", "title": "convert_unicode_arrays does what its documentation says", "statement": "convert_unicode_arrays keeps the keys, turns arrays of strings into object arrays of strings with trailing white space removed, also inside nested dicts and object arrays, and leaves everything else unchanged.", "quantifier": "every nested dict", "why_tests_cant": "Arbitrary nesting and contents.", "anchors": ["utide/utilities.py: convert_unicode_arrays"]}
{"id": "C90", "title": "intervals of inferred constituents follow from those of the reference", "statement": "With conf_int='linear' and a scalar record, the amplitude interval of a constituent inferred with ratio r is r times that of its reference constituent, and the phase interval is the same, since its amplitude is r times the reference amplitude and its phase a constant offset.", "quantifier": "every scalar record, every amplitude ratio and phase offset", "why_tests_cant": "Relation between two entries of the returned arrays for all inputs; no test has inference with intervals compared to theory.", "anchors": ["utide/confidence.py: _confidence lines 355-396, ut_linci", "utide/constituent_selection.py: ut_cnstitsel"]}
{"id": "C91", "title": "inferring some constituents leaves the intervals of the others right", "statement": "With conf_int='linear', white=True and method='ols' on a scalar record, the interval of a constituent that is fitted directly is 1.96 standard errors, propagated to first order from the best linear unbiased estimates of its two coefficients, also when other constituents are inferred (the inferred coefficients tied to those of their references, one parameter pair fewer for each).", "quantifier": "every scalar record, every exact inference specification", "why_tests_cant": "Compares covariance bookkeeping over columns with the theory of least squares, for all records and all inferences.", "anchors": ["utide/confidence.py: _confidence lines 193-262", "utide/_solve.py: _solv1 (columns of B)"]}
{"id": "C92", "title": "nodal corrections stay within known limits", "statement": "At every time and every latitude (not exactly 0), in every nodal mode, the amplitude factor F and phase shift U of a primary constituent are those of a complex number no further from 1 than a fixed limit (0.044 for M2, 0.003 for S2, 0.043 for N2, 0.164 for K1, 0.218 for O1, 0.351 for K2, ...; 0 for constituents without satellites); compounds lie between the products of their parents' limits. No harmonic vanishes, except possibly NO1, OO1 and UPS1, whose satellites may outweigh the main line.", "quantifier": "every time, every latitude, every nodal mode, all 146 constituents", "why_tests_cant": "Holds over all times and latitudes; tests sample a handful.", "anchors": ["utide/harmonics.py: FUV, ut_E"]}
{"id": "C93", "title": "the components of a current are analysed independently", "statement": "With method='ols', solving for a current (u, v) gives, constituent by constituent, the rotating components a+ib of the results a for u alone and b for v alone (both with the common gaps), the mean and trend of the components, and reconstruct of the current returns the two reconstructions; also with exact or approximate inference, the same ratio and offset given for both directions of rotation.", "quantifier": "every pair of series with any gaps, any constituents, options and prediction times", "why_tests_cant": "Relates three calls for all data and all options; a test compares a few examples at best.", "anchors": ["utide/_solve.py: _solv1", "utide/_reconstruct.py: _reconstruct", "utide/ellipse_params.py: ut_cs2cep"]}
{"id": "C94", "title": "more constituents never fit worse", "statement": "If an analysis with method='ols' has all the constituents of another analysis of the same record (by any method, same nodal and phase options), fits a trend if the other does and infers no more than the other, the sum of squared differences between the samples and its reconstruction is not larger.", "quantifier": "every record, every pair of nested option sets", "why_tests_cant": "Compares two calls for all records and all nested choices of constituents.", "anchors": ["utide/_solve.py: _solv1", "utide/_reconstruct.py: _reconstruct", "utide/constituent_selection.py: ut_cnstitsel"]}
{"id": "C95", "title": "how the constituents are listed does not matter", "statement": "With method='ols', listing the same constituents in another order (or having them chosen by 'auto') gives the same amplitude and phase (ellipse) for each of them, the same mean and trend, and the same reconstruction, also when the constituents cannot be separated, and with inference.", "quantifier": "every record, every list of constituents and every permutation of it", "why_tests_cant": "All permutations of all lists on all records, including rank-deficient cases where least squares has no unique solution.", "anchors": ["utide/_solve.py: _solv1, _reorder", "utide/constituent_selection.py: ut_cnstitsel"]}
{"id": "C96", "title": "the two spectral estimators agree on evenly spaced records", "statement": "For an evenly spaced record with an even number of samples, the Lomb-Scargle densities and cross-spectrum used for irregular records equal, at every Fourier frequency strictly between 0 and the Nyquist frequency, those of the FFT used for regular records, whatever the window and the time of the first sample; in band_psd, records up to 2490 hours get the same spectra with equi=True and equi=False at all frequencies of the latter.", "quantifier": "every evenly spaced record, window, origin and sampling interval", "why_tests_cant": "Two different algorithms (FFT, least-squares periodogram with phase shift and interpolated window) must carry the same normalisation for all inputs.", "anchors": ["utide/periodogram.py: _psd, _psd_lomb, _ls_cross, _lomb_freqs, band_psd"]}
{"id": "C97", "title": "spectra do not depend on the origin of time", "statement": "band_psd gives the same band-averaged densities of u, v and their co-spectrum when a constant is added to all times, evenly sampled or not ('time [days] relative to an arbitrary origin').", "quantifier": "every record, every shift, every set of constituent frequencies", "why_tests_cant": "All shifts of all records, including those where the phase shift tau is undetermined.", "anchors": ["utide/periodogram.py: band_psd, _psd_lomb, _ls_cross"]}
{"id": "C98", "title": "the Lomb-Scargle density is the power of the best-fitting sinusoid", "statement": "On any sample times, the density of u (v) at a frequency is n dt / sum(w^2) times the reduction of the sum of squares of the tapered, mean-free series by the best-fitting sinusoid of that frequency; the taper w is the given window, defined on an even grid over the record, read off linearly at the sample times, and dt the mean sampling interval.", "quantifier": "every irregular record, every window and every list of frequencies", "why_tests_cant": "Optimality over all sinusoids cannot be tested by examples.", "anchors": ["utide/periodogram.py: _psd_lomb"]}
{"id": "C99", "title": "predictions for parts of the constituents add up", "statement": "For a result of solve that lists every constituent once, reconstruct(constit=A or B together) + reconstruct(constit=A and B in common) = reconstruct(constit=A) + reconstruct(constit=B) at every valid time, and the full prediction is that for no constituents (mean and trend) plus what each constituent adds by itself.", "quantifier": "every result, all lists of names and all times", "why_tests_cant": "All pairs of sets of constituents; tests use one selection if any.", "anchors": ["utide/_reconstruct.py: _reconstruct"]}
{"id": "C100", "title": "mirroring a current mirrors the answer", "statement": "With method='ols', changing the sign of one component of a current, exchanging the components, or any other reflection leaves Lsmaj and the constituents unchanged, changes the sign of Lsmin (sense of rotation), reflects theta with the same phase g (half turns of both together aside), and reflects mean, slope and every prediction; with inference, the same ratios and offsets being given for both directions of rotation.", "quantifier": "every current, every reflection, all options and prediction times", "why_tests_cant": "Relates two calls for all records and reflections.", "anchors": ["utide/_solve.py: _solv1", "utide/ellipse_params.py: ut_cs2cep", "utide/_reconstruct.py: _reconstruct"]}
{"id": "C101", "title": "a regular stretch of samples determines the constituents", "statement": "Without time-dependent nodal corrections, a stretch of 2 nc + 1 (one more with a trend) samples at a regular spacing with more than two samples per period of the fastest constituent, different frequencies given, suffices: a record made of the constituents is recovered (amplitudes, phases, mean, slope) whatever other samples there are, and with one sample more intervals can be computed. If instead all samples lie on a grid on which two constituents are aliases of each other, the coefficients are not determined and no intervals are ever returned.", "quantifier": "every list of constituents, every spacing below the Nyquist limit, records of any length with any further samples and gaps", "why_tests_cant": "Invertibility of a matrix for all constituent lists and spacings.", "anchors": ["utide/_solve.py: _solv1", "utide/harmonics.py: ut_E"]}
{"id": "C102", "title": "the returned Bunches hold what is documented", "statement": "The result of solve has exactly these entries, each once: name, aux, nR, nNR, nI, weights; A, g, mean for an elevation or Lsmaj, Lsmin, theta, g, umean, vmean for a current; slope (uslope, vslope) iff trend; A_ci, g_ci (Lsmaj_ci, ...), SNR, diagn iff intervals were asked for; PE iff intervals or the order by energy were asked for; rf iff the method is robust. Under each name stands the value it names, and aux holds frq, lind, reftime, lat and opt. All arrays over the constituents have one entry per name. reconstruct returns t_in, epoch, constit, min_SNR, min_PE as given, t_mpl, and h or u and v of the length of t; a single time gives arrays of length one, times with two or more axes are a ValueError; passing t_mpl back with epoch='python' gives the same prediction.", "quantifier": "every series, all options, all time arguments", "why_tests_cant": "All combinations of the options; tests look at a few entries of a few results.", "anchors": ["utide/_reconstruct.py: reconstruct", "utide/_solve.py: _solv1, _reorder", "utide/diagnostics.py: ut_diagn"]}
{"id": "C103", "title": "filling gaps with the prediction does not change the answer", "statement": "With method='ols', replacing missing values of a series by what reconstruct returns for those times and solving again gives the same amplitudes and phases (ellipses) and the same mean and trend line: for gaps anywhere, also before the first and after the last sample, with Greenwich phases and nodal corrections exact or off; for gaps inside the record in every nodal and phase mode, then with the same reference time. The samples must determine the constituents.", "quantifier": "every record, every set of missing samples and every choice of those filled", "why_tests_cant": "Relates solve, reconstruct and solve again for all records and all patterns of gaps.", "anchors": ["utide/_solve.py: _slvinit, _solv1", "utide/_reconstruct.py: _reconstruct"]}
{"id": "C104", "title": "errors in the data are not amplified in the fitted curve", "statement": "With method='ols', changing the values of a series changes the reconstruction at the sample times by no more in root mean square than the values were changed; changing a single value by d changes the reconstruction at that time by q d with q between 0 and 1 (leverage), and over all sample times by sqrt(q) |d|. Also when the constituents cannot be separated, with gaps, trend and exact inference.", "quantifier": "every record, every perturbation, all options", "why_tests_cant": "A bound for all perturbations of all records, including rank-deficient designs.", "anchors": ["utide/_solve.py: _solv1", "utide/_reconstruct.py: _reconstruct"]}
{"id": "C105", "title": "lists and tuples are taken like arrays", "statement": "t, u and v are documented as array_like: plain lists and tuples of numbers (times) give the same result as arrays of the same elements, in solve and in reconstruct.", "quantifier": "every record, all options, every combination of lists and arrays", "why_tests_cant": "All combinations of argument kinds; the tests pass arrays only.", "anchors": ["utide/_solve.py: solve, _slvinit", "utide/_reconstruct.py: reconstruct"]}
{"id": "C106", "title": "what is analysed does not depend on the measured values", "statement": "Two series on the same times with the same samples missing get, with the same options and any method, the same constituents at the same frequencies, the same reference time, latitude and counts (and, unless sorted by energy or signal-to-noise ratio, in the same order); with method='ols' and without intervals a call also ends alike for both: with a result, or with the same error.", "quantifier": "every two series with the same gaps, all options", "why_tests_cant": "Relates the outcomes of all pairs of calls; a data-dependent failure or selection shows only for particular values.", "anchors": ["utide/_solve.py: _slvinit, _solv1, _reorder", "utide/constituent_selection.py: ut_cnstitsel"]}
{"id": "C107", "title": "listing every sample several times does not change the answer", "statement": "With method='ols', a record in which every row (time and values) occurs k times, in any order, gives the same amplitudes and phases (ellipses), and the same mean and trend as functions of time, as the record in which it occurs once: with Greenwich phases and nodal corrections exact or off, and in every mode if the reference time is the same. The samples must determine the constituents.", "quantifier": "every record, every number of repetitions and every order of the rows", "why_tests_cant": "All records, repetitions and orders.", "anchors": ["utide/_solve.py: _slvinit, _solv1"]}
{"id": "C108", "title": "what was found to be zero can be left out", "statement": "With method='ols', leaving out of the analysis constituents whose fitted amplitude is zero (and the trend, if the fitted slope is zero) changes nothing else: the other constituents get the same ellipses, mean and trend stay as they are. The samples must determine the constituents that are kept, not those left out.", "quantifier": "every record and every choice of constituents left out, with exact inference", "why_tests_cant": "Relates two analyses for all records and all sets of constituents.", "anchors": ["utide/_solve.py: _solv1", "utide/constituent_selection.py: ut_cnstitsel"]}
{"id": "C109", "title": "Monte-Carlo intervals are drawn from the distribution of the estimates", "statement": "With conf_int='MC', method='ols' and no inference, the intervals of each constituent are 1.96/0.6745 times the median absolute deviation, over 200 samples, of amplitude and phase (axes, inclination, phase), angles being counted around the estimate, the samples being drawn with mean the fitted cosine and sine coefficients and with covariance that of the best linear unbiased estimates: with white=True for noise of the variances and covariance of the residuals (divided by samples minus parameters), which is positive semidefinite; with white=False that matrix with the u block, the v block and the cross block scaled to the power (cross power) of the residuals in the band of the constituent, made positive definite. Every constituent gets samples of its own.", "quantifier": "every record and all options, every random number generator", "why_tests_cant": "The covariance of the estimates must be right for every design and all residuals; with wrong cross terms the intervals are merely a little off, and random.", "anchors": ["utide/confidence.py: _confidence, nearestSPD, cluster"]}
{"id": "C110", "title": "when Monte-Carlo intervals cannot be had", "statement": "With white=False, method='ols' and no inference, if solve returns linearised intervals then the same call with conf_int='MC' returns if and only if, in the band of every constituent, the residual power is a number (for currents the power of both components, and the cross power unless the residuals of the two are uncorrelated) and the fit is not perfect (in either component); otherwise it raises numpy's LinAlgError and nothing else.", "quantifier": "every record and all options", "why_tests_cant": "An equivalence over all records; the failing cases are degenerate data that tests do not contain.", "anchors": ["utide/confidence.py: _confidence, nearestSPD"]}
{"id": "C111", "title": "a robust analysis of a current does not depend on the axes", "statement": "With method='robust', the same current recorded in turned axes gives the same constituents, energies and weights, ellipses with the same axes and phases turned by the angle, and mean and trend turned.", "quantifier": "every vector record, every angle, all options", "why_tests_cant": "Relates two robust runs for all records and angles; the dependence on the axes comes from the ordering of complex numbers in np.median and shows only for particular residuals.", "anchors": ["utide/robustfit.py: robustfit, sigma_hat", "utide/_solve.py: _solv1"]}
{"id": "C112", "title": "an elevation given as a current with zero second component has the same confidence intervals", "statement": "With conf_int='linear' and no inference, solve(t, u, v) with v identically zero gives each constituent the same intervals of amplitude and phase as solve(t, u).", "quantifier": "every record, every set of constituents, both noise models", "why_tests_cant": "Relates two runs for all records; a test compares the amplitudes of one record and rarely their intervals.", "anchors": ["utide/confidence.py: _confidence, ut_linci", "utide/_solve.py: _solv1"]}
{"id": "C113", "title": "a record given k times: how the linear intervals shrink", "statement": "Ordinary least squares, conf_int='linear' with white=True, no inference, n usable samples and m parameters per component: a second solve in which every row of the record occurs k times, with the same constituents and the same reference time, reports intervals for amplitude, phase, minor axis and orientation multiplied by sqrt((n - m) / (k n - m)).", "quantifier": "every record, every k >= 1, elevations and currents, every order of the repeated rows", "why_tests_cant": "The factor holds for all records and all k; a test can only compare one doubled record.", "anchors": ["utide/confidence.py: _confidence, ut_linci", "utide/_solve.py: _solv1"]}
{"id": "C114", "title": "the robust method returns wherever ordinary least squares does", "statement": "If solve(..., method='ols') returns, and whichever sample is left out the others still determine the constituents, then solve(..., method='robust') with sensible robust_kw returns too.", "quantifier": "every record, every set of constituents, every robust_kw with a documented weight function, tune not zero, maxit at least two", "why_tests_cant": "Whether an iteration on arbitrary data ever meets a zero scale, a leverage of one or a rank-deficient weighted matrix cannot be settled by trying records.", "anchors": ["utide/robustfit.py: robustfit, sigma_hat, r_normed, leverage", "utide/_solve.py: _solv1"]}
{"id": "C115", "title": "an infinite signal-to-noise ratio means a perfect fit", "statement": "With conf_int='linear', white noise, method='ols' and no inference: an elevation constituent of amplitude not zero has half-widths zero and SNR infinite if some curve of the constituents passes through every sample, and otherwise positive half-widths and a positive finite SNR; one of amplitude exactly zero has NaN for all three. For a current the same holds of the SNR of constituents whose ellipse is not a circle, unless the cosine coefficient of v is exactly zero.", "quantifier": "every record, every set of constituents", "why_tests_cant": "An equivalence over all records: that no imperfect record whatsoever gets an infinite ratio cannot be tried out.", "anchors": ["utide/confidence.py: _confidence, ut_linci", "utide/diagnostics.py: ut_diagn"]}
{"id": "C116", "title": "sound calls with inference return", "statement": "A call of solve by OLS without confidence intervals whose options have documented values, whose data are as in C75, and whose infer is a Bunch with known names, one reference per inferred constituent and one ratio and offset each (two for currents) returns a result.", "quantifier": "every environment, record, option set and inference specification of that form with an explicit list of constituents or an automatic selection", "why_tests_cant": "A statement about all combinations of options, constituents and inference specifications.", "anchors": ["utide/_solve.py: _process_opts, validate_infer, _solv1, _slvinit", "utide/constituent_selection.py: ut_cnstitsel", "utide/harmonics.py: ut_E, FUV"]}
{"id": "C117", "title": "the automatic selection never asks for more than an hourly record can give", "statement": "Let constit be auto with Rayleigh_min at least 1, no inference and a sorting order, and let the record have no gaps, at least one sample per hour, and last more than an hour. Then there are more samples than unknowns (two per selected constituent, mean, slope); the selected frequencies are different, positive and below half the sampling frequency. If nodal corrections and phases are off or evaluated at the reference time, the samples determine every coefficient, so that a record made of the selected constituents, a mean and a trend comes back exactly, and the call returns with linearised intervals, or Monte Carlo ones with a white noise floor.", "quantifier": "every record length, sampling step up to an hour, start date in the first ten thousand years, Rayleigh_min >= 1 and data", "why_tests_cant": "Tests try a few record lengths; whether the criterion leaves enough samples depends on the whole table of 146 separations and on every record length.", "anchors": ["utide/constituent_selection.py: ut_cnstitsel", "utide/_solve.py: _slvinit, _solv1", "utide/harmonics.py: linearized_freqs"]}
{"id": "C118", "title": "predictions are smooth curves", "statement": "What reconstruct predicts from a result of solve is an analytic function of time, the same for whatever times and time format it is asked, without jumps and corners, in every nodal and phase mode (M7 excepted, C40); a level passed between two predictions is predicted for a time in between, also for the component of a current in any direction. With nodal corrections and phases off or evaluated at the reference time the prediction never changes faster than the slope plus, for every constituent, its amplitude times 2 pi over its period times its (constant) nodal factor.", "quantifier": "every record, option set, result, choice of constituents, and all times", "why_tests_cant": "Continuity is a statement about all real times; a test sees predictions at finitely many times, and a wrap-around error shows only near the wrap.", "anchors": ["utide/_reconstruct.py: reconstruct, _reconstruct", "utide/harmonics.py: ut_E, FUV", "utide/astronomy.py: ut_astron"]}
{"id": "C119", "title": "results in one correction convention convert to another", "statement": "Two ordinary least-squares analyses of the same record without inference that differ only in 'nodal' and 'phase' (each the same in both, or off in one and 'linear_time' in the other) describe the same tide: same mean, slope and reference time, same prediction at every time. Greenwich phases at the reference time ('linear_time') exceed raw phases by the equilibrium argument of the constituent at the reference time, with the same axes and inclination, whether or not the record determines the coefficients. Amplitudes (semi-axes) with nodal corrections at the reference time are those of the uncorrected analysis divided by the nodal factor, phases larger by the nodal angle, if the record determines the coefficients.", "quantifier": "every record, latitude, list or automatic selection of constituents (M7 excepted), scalar and vector; any nodal mode for the phase conversion, any phase mode for the nodal conversion", "why_tests_cant": "The conversion factors depend on reference time, latitude and constituent; a test checks one of them on one record.", "anchors": ["utide/_solve.py: solve, _solv1", "utide/harmonics.py: ut_E, FUV", "utide/_reconstruct.py: reconstruct"]}
{"id": "C120", "title": "robust weights are the documented functions of the residuals", "statement": "A robust analysis starts from unit weights; each curve fitted is the best one (least sum of squares of weight times distance) for its weights; each further weight is the documented function (bisquare, cauchy, fair, ols, talwar, welsch) of the distance of the sample from the previous curve divided by the tuning constant, by the robust standard deviation of the distances (median distance from the median over 0.6745) and by the square root of one minus the leverage of the sample. The tuning constant is the one given, else 4.685, 2.385, 1.4, 1, 2.795, 2.985. coef.weights is the set of weights of the curve returned, or the next one if maxit (default 50) is reached. The leverage is the diagonal of the projection on the model: 1 minus the least squared distance of the curves from the record that is 1 at this sample and 0 at the others.", "quantifier": "every robust analysis that returns, every record, weight function, tuning constant, number of iterations; scalar and vector, with or without exact inference", "why_tests_cant": "The relation between weights and residuals involves all samples and iterations; a test compares single runs.", "anchors": ["utide/robustfit.py: robustfit, leverage, sigma_hat, r_normed, bisquare, cauchy, fair, ols, talwar, welsch, tune_defaults", "utide/_solve.py: _solv1"]}
{"id": "C121", "title": "random errors in the data average out, and the reported variances are right on average", "statement": "If the data are a tide of separated constituents plus errors of mean zero, then with method='ols' the amplitudes (rotating components), the mean and the slope returned by solve, and what reconstruct predicts at any time, are on average those of the tide. If the errors are moreover uncorrelated with equal variance: the sum of squares of data minus reconstruction is on average that variance times the number of samples minus the number of fitted parameters, the reconstruction misses the tide by that variance times the number of fitted parameters, and (linearised intervals, white noise floor, scalar series) the variances from which the reported intervals are propagated are on average the mean squared errors of the coefficients.", "quantifier": "every probability distribution of the errors with these moments, every tide, times, gaps, options with method='ols'; scalar and vector, exact inference, with or without trend", "why_tests_cant": "A statement about averages over all outcomes of the errors; a test draws a few.", "anchors": ["utide/_solve.py: solve, _solv1", "utide/_reconstruct.py: reconstruct", "utide/confidence.py: _confidence, ut_linci"]}
{"id": "C122", "title": "withheld samples are never fitted better than used ones", "statement": "With method='ols', remove some values from a record and analyse the same constituents with the rest. At the removed samples the sum of squares of data minus reconstruction is then at least as large as when they are used; the difference is exactly the sum of squares of the change of the curve there plus twice that at the remaining samples. If a single sample is removed, the curve fitted with it lies, at its time, between the curve fitted without it and the sample.", "quantifier": "every record, scalar or vector, every set of removed samples, with or without trend, exact inference; phase='Greenwich' and nodal true or false, or any modes as long as the reference time is the same", "why_tests_cant": "Relates two analyses for all data and all choices of what is withheld; a test can only try some splits.", "anchors": ["utide/_solve.py: solve, _slvinit, _solv1", "utide/_reconstruct.py: reconstruct"]}
{"id": "C123", "title": "a record without usable samples is refused", "statement": "Claimed: solve raises an error if no row of the record has both a finite time and a value. False: with evenly spaced times and conf_int='none' it returns, with all amplitudes, mean and trend equal to 0. What holds: with method='ols' this is the only way in which such a call can return (uneven times, and confidence intervals of either kind, make it fail), and the robust method never returns.", "quantifier": "every record without usable samples, scalar or vector, all options", "why_tests_cant": "A test would have to think of a record of nothing but missing values; here all ways of getting an answer from no data are found.", "anchors": ["utide/_solve.py: _slvinit, _solv1", "utide/confidence.py: _confidence", "utide/robustfit.py: robustfit"]}
{"id": "C124", "title": "leaving out constituents changes a prediction by at most their amplitudes", "statement": "Two predictions from the same solution for different choices of constituents (by name, min_SNR, min_PE) differ at no time by more than the sum of amplitude times nodal factor over the constituents used in only one of them. With nodal=False and only min_PE=p excluding constituents, a prediction differs from the complete one by at most k*sqrt(p/100*P), k being the number left out and P the sum of all energies.", "quantifier": "every result of solve, every time, every choice of constituents", "why_tests_cant": "Bounds hold at every time of an endless prediction and for all solutions; tests sample a few.", "anchors": ["utide/_reconstruct.py: _reconstruct (selection by min_SNR, min_PE, constit)", "utide/diagnostics.py: _PE"]}
{"id": "C125", "title": "records analysed together and separately", "statement": "With method='ols' and the same options and constituents (Greenwich phases, nodal exact or off, or equal reference times): if two records are analysed separately and, joined in any order, together, then the joint analysis leaves at least as much (sum of squared residuals at the samples) as the separate ones together; and if the separate analyses agree in all ellipses, mean and trend, then the joint one gives the same.", "quantifier": "all pairs of records, with gaps and in any order, scalar or vector, with and without exact inference", "why_tests_cant": "Compares three analyses of arbitrary records; a test compares a few.", "anchors": ["utide/_solve.py: _solv1, _slvinit", "utide/harmonics.py: ut_E", "utide/_reconstruct.py: _reconstruct"]}
{"id": "C126", "title": "constituents orthogonal over the samples", "statement": "With method='ols' and no inference: if a record is analysed with some constituents and again with only part of them (same nodal/phase/epoch/trend options), and over the usable samples each left-out harmonic is orthogonal to constants, to the trend if fitted, and to the harmonics of the constituents kept (turning in both directions), then both analyses report the same ellipses, mean and trend for what is kept, provided the samples determine these.", "quantifier": "all records, scalar or vector, with gaps; all constituent lists, one contained in the other", "why_tests_cant": "Compares two analyses of arbitrary records; a test compares a few.", "anchors": ["utide/_solve.py: _solv1, _slvinit", "utide/harmonics.py: ut_E", "utide/_reconstruct.py: _reconstruct"]}
{"id": "C127", "title": "in an orthogonal design the analysis is the classical one", "statement": "With method='ols' and no inference: if over the usable samples the harmonic h of a constituent is orthogonal to constants, to the trend if fitted, to the other constituents (turning in both directions) and to its own conjugate, and N is the sum of |h|^2 (the number of samples without nodal corrections), then the rotating parts of its ellipse are the averages (1/N) sum conj(h) x and (1/N) sum h x of the data; for an elevation with conf_int='linear', white=True, A_ci = 1.96 sqrt(2 s2/N) and g_ci = 1.96 (180/pi) sqrt(2 s2/N)/A with s2 the residual variance per degree of freedom.", "quantifier": "all records (intervals: scalar), gaps included, and all constituent lists", "why_tests_cant": "A closed form for arbitrary records and constituent lists; a test compares numbers for a few.", "anchors": ["utide/_solve.py: _solv1, _slvinit", "utide/harmonics.py: ut_E", "utide/confidence.py: _confidence, ut_linci"]}
{"id": "C128", "title": "percent energy is the share of the energy of the predicted tide", "statement": "For a result of solve with harmonics of constant amplitude (nodal and phase not 'exact'), different positive frequencies, and predictions at regular times with more than two per period: the mean over m times of |reconstruct(t, coef, ...) - mean - trend|^2 tends, as m grows, to the sum over the constituents asked for of (Lsmaj^2+Lsmin^2)/2 (A^2/2) times the squared nodal factor. Without nodal corrections, 100 times the energy of the prediction for one constituent over that for all tends to its PE.", "quantifier": "all records, methods, constituent lists, selections in reconstruct and start times", "why_tests_cant": "A limit over ever longer predictions; no finite test can show it.", "anchors": ["utide/diagnostics.py: _PE", "utide/_reconstruct.py: _reconstruct", "utide/harmonics.py: ut_E"]}
{"id": "C129", "title": "the order of the samples does not affect the confidence intervals", "statement": "Two calls of solve(conf_int='linear', method='ols', no inference) on the same samples (time, u, v) in another order, with the same options, constituents and reference time, return the same confidence intervals for the same constituent. True for white=True. False for the default white=False: given an evenly sampled record in descending order of time the noise spectrum has negative frequencies only, no frequency falls into a band, and A_ci and g_ci are NaN for every constituent inside a band; an unevenly sampled record in descending order cannot be analysed at all with conf_int='linear' or 'MC'.", "quantifier": "all records, orders of the samples and options of solve", "why_tests_cant": "All orders of all records; a test tries one order.", "anchors": ["utide/confidence.py: band_averaged_psd_by_constit", "utide/periodogram.py: band_psd", "utide/periodogram.py: _lomb_freqs", "utide/periodogram.py: fbndavg", "utide/confidence.py: _confidence"]}
{"id": "C130", "title": "the frequencies of an analysis are those of utide.cycles_per_hour", "statement": "The frequencies solve works with are computed from the astronomical rates at the reference time, not read from the catalogue. Still, for every constituent of a result, coef.aux.frq differs from utide.cycles_per_hour[name] by at most 1e-9 cycles per hour if the reference time is within 400 years of 1900, and by at most 1e-6 in the first ten thousand years. In that era different constituents have different frequencies in the order of the published ones; with order_constit='frequency' the names therefore come in the order of cycles_per_hour; and every constituent but Z0 lies in exactly one of the noise bands, the one of its published frequency.", "quantifier": "all results of solve, whatever record, options and reference time in the stated era, and all 146 constituents", "why_tests_cant": "All dates and constituents at once; a test looks at one record.", "anchors": ["utide/harmonics.py: linearized_freqs", "utide/_ut_constants.py: cycles_per_hour", "utide/confidence.py: band_averaged_psd_by_constit", "utide/_solve.py: _reorder", "utide/astronomy.py: ut_astron"]}
{"id": "C131", "title": "a constituent listed more than once shares its amplitude among its rows", "statement": "solve accepts a constit list that names a constituent several times. With method='ols' and no inference the result then has that many rows for it, all equal; each has the amplitude (semi-axes) of the analysis with the name listed once divided by the number of rows, and the same phase and inclination. All other constituents, mean, trend and what reconstruct returns for the whole result are as if every name were listed once. (So a duplicate in the list halves the reported amplitude without any warning.)", "quantifier": "all records, options and lists of names for which the samples separate the constituents", "why_tests_cant": "All lists and records; a test tries one list. The split is decided by the minimum-norm solution of a rank-deficient system.", "anchors": ["utide/_solve.py: _solv1", "utide/constituent_selection.py: ut_cnstitsel", "utide/_reconstruct.py: _reconstruct"]}
{"id": "C132", "title": "constituents the samples cannot tell apart share the tide", "statement": "If, over the samples, the harmonic of one constituent is a multiple of that of another (aliases of each other on a regular grid) or is constant (a whole number of periods between samples, like S2 at two samples per day), the call succeeds without warning when no intervals are asked for. With method='ols', no inference: aliases without nodal corrections get the same amplitude (Lsmaj, Lsmin up to sign) and each contributes the same at the samples; a constituent with constant harmonic gets an amplitude of twice the mean reported; if it is the only one and no trend is fitted, that mean is a third of the average of the data.", "quantifier": "all records, options, lists of names and sampling grids", "why_tests_cant": "All records and grids; the split is decided by the minimum-norm solution of a rank-deficient system, and a test sees one case.", "anchors": ["utide/_solve.py: _solv1", "utide/harmonics.py: ut_E"]}
{"id": "C133", "title": "what 'linear_time' costs against exact phases and nodal corrections", "statement": "For every constituent but M7 the exact Greenwich argument stays within 6e-6 cycles per (10000 days)^2 of the linear one (argument at the reference time plus reported frequency times time elapsed), in the years -800 to 4600: 0.0022 degrees in 27 years. Hence, without inference and with method='ols', the root sum of squares that an analysis with phase='linear_time' or 'raw' leaves exceeds that of phase='Greenwich' (and the other way round) by at most 2 pi 6e-6 (d/10000)^2 sqrt(N) times the sum of the amplitudes (times nodal factors), d being the greatest distance of a sample from the reference time. Likewise nodal='linear_time' against nodal=True: by at most d sqrt(N) times the sum of amplitudes times the rate at which the satellites can change the correction; for M2 5e-5 per day, S2 3e-6, N2 6e-5, K2 3.7e-4, K1 1.7e-4, O1 2.5e-4, P1 2.3e-5, Q1 6.2e-4, at every latitude.", "quantifier": "all records, times, latitudes, constituents other than M7; all pairs of runs that differ only in these options", "why_tests_cant": "All dates, constituents and data; a test compares the two options on one record.", "anchors": ["utide/harmonics.py: linearized_freqs", "utide/harmonics.py: FUV", "utide/astronomy.py: ut_astron", "utide/_solve.py: _solv1"]}
{"id": "C134", "title": "a record played backwards", "statement": "Mirror the times of a record about its reference time (t -> 2 reftime - t), in any order, and analyse it with the same options: method='ols', no inference, phases and nodal corrections raw or 'linear_time', samples that separate the constituents, the same constituents and reference time reported. Every constituent keeps its major axis (amplitude), its minor axis changes sign (currents rotate the other way), its orientation is kept, and its phase becomes 2 s - g modulo 360 where s is the angle of the constituent's harmonic at the reference time (0 for phase='raw' without nodal corrections: the phase changes sign); the mean stays, the trend changes sign, and reconstruct of the second result at a time gives what reconstruct of the first gives at the mirrored time.", "quantifier": "all records, one- and two-dimensional, all options of these kinds", "why_tests_cant": "All records and constituents; a test mirrors one record.", "anchors": ["utide/_solve.py: _solv1", "utide/harmonics.py: ut_E", "utide/ellipse_params.py: ut_cs2cep", "utide/_reconstruct.py: _reconstruct"]}
{"id": "C135", "title": "more samples, more constituents and the width of the intervals", "statement": "For a scalar series analysed with method='ols', no inference, conf_int='linear' and white=True write w = A_ci^2 + (pi/180 A g_ci)^2 for the squared half-widths of a constituent of non-zero amplitude, and s2 for the residual variance per degree of freedom. Adding samples (any rows, anywhere, in any order; same constituents, reference time and options) never makes w/s2 larger. Analysing the same samples with further constituents, or with a trend, never makes w/s2 of the constituents already there smaller.", "quantifier": "all scalar records, all added rows, all sets of constituents containing the first", "why_tests_cant": "All records, extensions and constituent sets; a test compares two analyses of one record.", "anchors": ["utide/_solve.py: _solv1", "utide/confidence.py: _confidence", "utide/confidence.py: ut_linci"]}
{"id": "C136", "title": "predictions analysed again give back the analysis", "statement": "Take any result of solve (any method, with or without inference) and predict from all its constituents at any other times (or the same). Analysing these predictions with method='ols', the same nodal and phase options, latitude and dimension, a list of constituents that contains those of the first result (inferred ones included; no inference in the second analysis) and a trend if the first had one returns, wherever the new times separate the constituents, the same ellipses, mean level and trend line, zero for every additional constituent, and the same predictions at all times; for nodal and phase corrections computed exactly the reference times may differ.", "quantifier": "all results, all times of prediction that separate the constituents, scalar and vector", "why_tests_cant": "All results and all times; a test makes one round trip.", "anchors": ["utide/_solve.py: _solv1", "utide/_reconstruct.py: reconstruct", "utide/_reconstruct.py: _reconstruct", "utide/harmonics.py: ut_E"]}
{"id": "C137", "title": "intervals of a robust analysis are those of weighted least squares", "statement": "For a scalar series, any method, conf_int='linear' and no inference the variances behind the intervals are those of the best linear unbiased estimators for observations whose noise variance is inversely proportional to the returned weights; observations of weight zero are left out. White noise: the factor is sum(weight * observation * (observation - prediction)) over the excess of observations (of any weight) over parameters; amplitude and phase intervals are 1.96 times the propagated standard errors; since the weights returned need not belong to the coefficients returned this factor can be negative, and then the amplitude and phase intervals are NaN. Coloured noise: the variances of the two components add up to the band power of the weighted residuals weight * (observation - prediction) and stand in the ratio of those of the two estimators.", "quantifier": "all scalar records, weights and numbers of constituents", "why_tests_cant": "All records and all weights a robust fit can return.", "anchors": ["utide/confidence.py: _confidence", "utide/confidence.py: band_psd", "utide/_solve.py: _solv1"]}
{"id": "C138", "title": "which analyses can have confidence intervals, any method", "statement": "Without inference, an analysis that returned (ordinary or robust, scalar or vector) also returns with linearised or Monte Carlo intervals and a white noise floor if the observations of non-zero weight determine the model and the number of observations differs from that of the parameters; and every analysis that returns with intervals satisfies both.", "quantifier": "all records, constituents, methods and weight functions", "why_tests_cant": "All records: which observations a robust fit rejects altogether depends on the data.", "anchors": ["utide/confidence.py: _confidence", "utide/_solve.py: _solv1", "utide/robustfit.py: robustfit"]}
{"id": "C139", "title": "what an automatic selection separates", "statement": "With constit='auto' and no inference any two constituents of the result differ in published frequency (and up to 2e-9 cycles per hour in reported frequency) by at least Rayleigh_min over the record length, except K1 and M2 on records of 0.997 to 1.076 days times Rayleigh_min; the principal constituents appear from stated record lengths on (M2 0.52 days, K1 1.0, O1 13.7, S2 14.8, N2 27.6, K2 182.6, ...); and apart from seven constituents each is there together with its comparison constituent.", "quantifier": "all records, values of Rayleigh_min, sorting orders", "why_tests_cant": "The selection compares each constituent with one other only; that no other pair comes too close, for any record length, is a fact about the whole table.", "anchors": ["utide/constituent_selection.py: ut_cnstitsel", "utide/_solve.py: _solv1"]}
{"id": "C140", "title": "building a Bunch", "statement": "Bunch(*args, **kwargs) has exactly the keys given, each once and in the order of their first mention, and for each the value given last: that of the keyword argument if there is one, else that of the last argument that has the key; Bunch(b) and Bunch(**b) equal b.", "quantifier": "all sequences of dictionaries or of key-value pairs and all keyword arguments", "why_tests_cant": "All dictionaries.", "anchors": ["utide/utilities.py: Bunch.__init__"]}
{"id": "C141", "title": "where the noise of a record goes", "statement": "With method='ols', for any tide of the constituents analysed taken as the true one: the sum of squares of what the record has beyond it (noise, unmodelled tides) equals that of the residual plus that of the difference between reconstruction and true tide; so the fitted tide is never further from the true one than the data are. For a constituent that averages out over the samples against the rest of the model no noise whatever can put its amplitude wrong by more than sqrt(2) times the noise's root mean square.", "quantifier": "all records, elevations and currents, with gaps and inference, all supposed tides and all noise", "why_tests_cant": "All noise and all supposed tides.", "anchors": ["utide/_solve.py: _solv1", "utide/_reconstruct.py: reconstruct"]}
{"id": "C142", "title": "reading variables from a Python file", "statement": "b.from_pyfile(f) sets exactly the variables that the file, run as the body of a function, assigns: the others keep their values, new keys follow the old ones; the program run is the text of the file with four blanks put in front of every line (also of lines inside string literals) and nothing else changed; exceptions in opening or running are passed on and leave the Bunch as it was.", "quantifier": "all file contents, Bunches and outcomes of running the program", "why_tests_cant": "All file contents.", "anchors": ["utide/utilities.py: Bunch.from_pyfile"]}
{"id": "C143", "title": "gaps in the residual", "statement": "For an evenly sampled record in increasing order some of whose samples are missing, coloured intervals use the spectrum of the residual drawn through the gaps: at usable samples it is the (weighted) residual itself, inside a gap it lies on the straight line between the two neighbouring residuals, before the first and after the last usable sample it is constant; so it nowhere exceeds the largest residual, and for a complete record it is the residual. complex_interp does this to any complex values at increasing times.", "quantifier": "all runs with linearised coloured intervals of scalar series without inference, any method, evenly sampled increasing times with any missing samples; all inputs of complex_interp with increasing sample times", "why_tests_cant": "All gap patterns and residuals.", "anchors": ["utide/confidence.py: band_averaged_psd_by_constit", "utide/utilities.py: complex_interp"]}
{"id": "C144", "title": "ways of calling ut_cs2cep", "statement": "ut_cs2cep gives for every row the parameters of the oscillation with these coefficients: Xu cos + Yu sin = A cos(phase - g) with A >= 0 and g in [0, 360); for currents the hodograph is the ellipse with axes Lsmaj, Lsmin turned by theta in [0, 180) and passed from the end of the major axis at phase g. Two arrays and one array with two columns give the same, four arrays and one array with four columns give the same. Any other number of columns, or a single array with one axis, is refused (ValueError, or IndexError for 2 or 4 elements), Xv without Yv is a TypeError.", "quantifier": "all coefficient arrays of equal lengths, all phases", "why_tests_cant": "All coefficients and phases, all shapes.", "anchors": ["utide/ellipse_params.py: ut_cs2cep"]}
{"id": "C145", "title": "white noise intervals of a current, any method", "statement": "For currents, any method, conf_int='linear', white=True and no inference each component has its own noise variance, sum(weight * observation * (observation - prediction)) over the excess of observations over parameters; with the best linear unbiased estimators for noise variances inversely proportional to the returned weights this gives the standard errors of the four ellipse coefficients, independent of how the other component is scattered. The intervals of major axis and phase are 1.96 times the propagated standard errors, unless the ellipse is a circle; those of minor axis and orientation too, unless the cosine coefficient of v is exactly zero. If the variance of either component comes out negative (robust weights only), the intervals of major axis and phase of both come out NaN.", "quantifier": "all current records, options with linearised intervals, white noise floor and no inference, ols and robust", "why_tests_cant": "Statistical claim about all records and all weights a robust fit may return.", "anchors": ["utide/_solve.py: _solv1", "utide/confidence.py: _confidence", "utide/confidence.py: ut_linci"]}
{"id": "C146", "title": "Confidence intervals of a current do not depend on the direction of the axes", "statement": "For a current analysed with `white=True`, `conf_int='linear'`, `method='ols'` and without inference, analysing the same current in axes turned by any angle gives the same confidence interval of the major axis of each constituent.", "quantifier": "for all records of two components, all angles, all options of such runs, both runs returning", "why_tests_cant": "The test-suite analyses each record in one pair of axes only; whether the interval survives a rotation depends on the correlation between the residuals of the two components, which varies over a continuum of records.", "anchors": ["utide/_solve.py: _solv1", "utide/confidence.py: _confidence", "utide/confidence.py: ut_linci"]}
{"id": "C147", "title": "A robust fit does not depend on the order of the observations or of the curves", "statement": "For tolerances that truncate no singular value, `robustfit` given the observations in another order returns the same coefficients, the same number of iterations and the same residual sizes, with the weights and leverages moved along with the observations, or raises the same error; given other combinations of the same curves (an invertible mixing of the columns) it returns the same weights, leverages, iterations and fitted values. Hence two robust analyses of a record for the same constituents, however they are listed or ordered in the output, give the same ellipses, mean, trend, weights and predictions.", "quantifier": "for all weight functions, design matrices, data, permutations, invertible combinations of columns, and all records and options of robust runs", "why_tests_cant": "Iteratively reweighted fits stop by comparing successive residuals and discard the last step when it is worse; the tests run one ordering of one record, and cannot show that the branch taken is the same for every ordering and every representation.", "anchors": ["utide/robustfit.py: robustfit", "utide/robustfit.py: leverage", "utide/_solve.py: _solv1"]}
{"id": "C148", "title": "A robust analysis does not depend on the order of the samples", "statement": "Two robust analyses with the same options of the same rows (time, u, v) in different orders, for the same constituents, which the sample times separate: if phases are Greenwich and nodal corrections exact or absent, or if the two results have the same reference time, then every ellipse, and mean and trend as a function of time, are the same, each sample carries the same weight, and the number of iterations and the residual sizes agree.", "quantifier": "for all records, rearrangements, weight functions, options and separating sample times, both runs returning", "why_tests_cant": "The tests analyse time-ordered records; the robust fit iterates over medians, leverages and weights, and only a proof covers every rearrangement, including ties between residuals.", "anchors": ["utide/_solve.py: _solv1", "utide/robustfit.py: robustfit"]}
{"id": "C149", "title": "Oversampling refines the Lomb-Scargle frequency grid", "statement": "With the documented oversampling factor ofac, the frequencies P.F returned by _psd_lomb without given frequencies (and the grid of _lomb_freqs before it is cut into bands) are the whole multiples of 1/(ofac times record length) below the Nyquist frequency.", "quantifier": "for every time axis whose last time is later than its first, every factor", "why_tests_cant": "The tests of the Lomb-Scargle code are commented out and use ofac=1; a finer grid for all records and factors is not something samples can show.", "anchors": ["utide/periodogram.py: _lomb_freqs", "utide/periodogram.py: _psd_lomb", "utide/periodogram.py: band_psd"]}
{"id": "C150", "title": "Band averages over any bands, with or without constituents", "statement": "fbndavg(P, freq, cfreq, fbands) gives for each band of fbands (the nine noise bands when None) the mean of P over the positions the band reaches, without the position nearest to each constituent when cfreq is given; bands do not influence one another; order and repetition of the constituents do not matter; an empty list of constituents is the same as none; averages of non-negative spectra are non-negative.", "quantifier": "for every ordered frequency grid, periodogram, list of bands and constituents", "why_tests_cant": "The function's optional arguments are not exercised by the tests at all.", "anchors": ["utide/periodogram.py: fbndavg"]}
{"id": "C151", "title": "Only the shape of the data window matters", "statement": "Multiplying the data window by a number other than zero changes none of the spectra of _psd and _psd_lomb; leaving out the window of _psd_lomb is the same as any constant window; leaving out the frequencies is the same as giving those of the grid, and given frequencies are returned unchanged whatever the oversampling factor.", "quantifier": "for all series (real and complex), windows, frequencies, sampling times and factors", "why_tests_cant": "The normalisation by the window's power is a formula that must hold for every window; the tests use the Hann window only and never call without a window.", "anchors": ["utide/periodogram.py: _psd", "utide/periodogram.py: _psd_lomb"]}
{"id": "C152", "title": "Options that do not apply have no effect", "statement": "Two calls of solve with acceptable options that agree except for verbose, MC_n, robust_kw (method 'ols'), Rayleigh_min (constituents listed) and white (conf_int='none') have the same outcome: the same error, or the same result in every field but the recorded options. With nodal=False two calls that differ in the latitude have the same outcome but for the recorded latitude.", "quantifier": "for all records, options, inference settings and methods", "why_tests_cant": "The independence is from every value of the option, on every record, including those where the call fails.", "anchors": ["utide/_solve.py: solve", "utide/_solve.py: _translate_opts", "utide/_solve.py: _solv1", "utide/constituent_selection.py: ut_cnstitsel"]}
{"id": "C153", "title": "A prediction uses only the tide, the mean and the trend", "statement": "The outcome of reconstruct (series or error) is determined by the names, catalogue entries, ellipse parameters, mean, slope, dimension, trend and correction options of coef; by the latitude only if there are nodal corrections; by the stored frequencies only for raw phases without nodal corrections; by the reference time only with raw phases, linearised corrections or a trend; by min_SNR, min_PE, the intervals and the diagnostics option only if no constituents are listed and a threshold is set. Weights, stored PE and SNR, the diagnostics table and verbose have no effect. Hence with nodal=False solutions computed for different latitudes predict the same, and so do solutions computed with different values of options that do not apply.", "quantifier": "for all solutions, times, requests and records", "why_tests_cant": "The claim is that two outcomes are equal for every value of the parts that are not needed; a test changes one part of one solution.", "anchors": ["utide/_reconstruct.py: reconstruct", "utide/_reconstruct.py: _reconstruct", "utide/harmonics.py: ut_E", "utide/harmonics.py: FUV"]}
{"id": "C154", "title": "The same record at another date", "statement": "If all times of a record are moved by s days and nothing else is changed, then in the results the reference time moves by exactly s and the same constituents are selected, inferred ones included. With nodal=False and phase='raw' the harmonic of every constituent, as a function of the time elapsed, is the same to within 3.1e-7 per day from the reference time, as long as both reference times are within 400 years of the end of 1899: the frequencies are those of the date, and change by at most 2e-9 cycles per hour. Accordingly, with method='ols', the root sums of squared residuals of the two analyses differ by at most 3.1e-7 d B \u221aN, for N samples within d days of the reference time and amplitudes that add up to at most B. A raw solution whose reference time is moved by s days predicts for times moved by s days exactly what it predicted before.", "quantifier": "for all records, shifts, options and constituents", "why_tests_cant": "The bound is uniform in the record, the shift and the constituent, over eight centuries of dates.", "anchors": ["utide/_solve.py: _slvinit", "utide/constituent_selection.py: ut_cnstitsel", "utide/harmonics.py: linearized_freqs", "utide/harmonics.py: ut_E"]}
{"id": "C155", "title": "A current along a line is analysed as an elevation along it", "statement": "For the current u = h cos \u03c6, v = h sin \u03c6 (missing where h is), analysed with method='ols', conf_int='none' and no inference, not ordered by SNR: the names, their order, the frequencies and the percent energies are those of the analysis of h alone. Lsmaj is the amplitude A and Lsmin is 0; where A > 0, theta is \u03c6 and g is the phase of the elevation, up to half turns that theta and g make together. The mean and the slope are those of h along the same direction.", "quantifier": "for all times, elevations with any missing samples, directions, and options of this kind", "why_tests_cant": "Relates two different code paths (one and two dimensions) for every series and every direction; tests compare a few numbers.", "anchors": ["utide/_solve.py: _solv1", "utide/ellipse_params.py: ut_cs2cep"]}
{"id": "C156", "title": "The tide averages out", "statement": "Predictions at m regular times, from a solution whose harmonics have constant amplitude (nodal and phase off or 'linear_time'): the mean of the prediction differs from that of mean and trend by at most the sum, over the constituents used, of amplitude (major semi-axis) times nodal factor, divided by m |sin(pi n)| with n the number of cycles from one time to the next. For hourly predictions without nodal corrections and Z0 (reference time in the first ten thousand years): by at most the sum of amplitude times half the period in hours, divided by m; so it tends to zero.", "quantifier": "for all solutions (any method, confidence setting, inference), selections of constituents, starting times, steps and lengths", "why_tests_cant": "The bound is for every length of prediction at once, and the limit is beyond any test.", "anchors": ["utide/_reconstruct.py: _reconstr1", "utide/harmonics.py: ut_E"]}
{"id": "C157", "title": "A constituent through its period", "statement": "A constituent of positive frequency f (cycles per hour) predicted by itself (constit=[name], no name twice), with harmonics of constant amplitude and nodal=False: what it adds to mean and trend repeats after 1/f hours. In every period there is a time at which it is the major semi-axis (the amplitude) in the direction theta; a quarter of a period later it is the minor semi-axis, with its sign, at 90 degrees to theta (zero for an elevation at mid-tide); after a half and three quarters of a period it is the opposite of these.", "quantifier": "for all solutions (any method, confidence setting, inference), constituents, and starting times", "why_tests_cant": "States what the predicted curve does at times which depend on the solution and are on no grid.", "anchors": ["utide/_reconstruct.py: _reconstr1", "utide/harmonics.py: ut_E", "utide/ellipse_params.py: ut_cs2cep"]}
{"id": "C158", "title": "What a tide outside the model leaks into a constituent", "statement": "A record that is nothing but a steady tide of a frequency not in the model, sampled at m regular times and analysed by ordinary least squares without inference (nodal and phase off or 'linear_time'): in a constituent whose harmonic averages out against the rest of the model, the amplitude (major semi-axis) found, times its nodal factor, is at most the amplitude of that tide, divided by m, times 1/|sin pi(y-x)| + 1/|sin pi(y+x)|, where x and y are the cycles of the constituent and of the foreign tide from one sample to the next.", "quantifier": "for all frequencies, amplitudes and phases of the foreign tide, elevations and currents, and record lengths", "why_tests_cant": "A bound for every frequency of the foreign tide and every length of record; a test tries a few pairs.", "anchors": ["utide/_solve.py: _solv1", "utide/ellipse_params.py: ut_cs2cep", "utide/harmonics.py: ut_E"]}
{"id": "C159", "title": "Springs and neaps", "statement": "Two constituents of different frequencies f > 0 and f' (cycles per hour) and amplitudes A and A' of an elevation, predicted together (constit=[n, n'], no name twice), with harmonics of constant amplitude and nodal=False: in every beat period of 1/|f - f'| hours there is a time of springs s such that at every time T the height besides mean and trend has a square of at most A^2 + A'^2 + 2AA' cos 2pi(f - f')(T - s), and at some time T within 1/f hours after springs the height is A + A' cos 2pi(f - f')(T - s). At neaps, half a beat after springs, the height is at most |A - A'| in magnitude.", "quantifier": "for all solutions for elevations (any method, confidence setting, inference), pairs of constituents, and starting times", "why_tests_cant": "The times of springs and neaps depend on the solution and are on no grid; the bound is for all times.", "anchors": ["utide/_reconstruct.py: _reconstr1", "utide/harmonics.py: ut_E", "utide/ellipse_params.py: ut_cs2cep"]}
{"id": "C160", "title": "Mean and trend where the tide averages out over the samples", "statement": "Ordinary least squares with or without inference, elevations and currents: if over the usable samples the harmonics of all constituents in the model add up to zero (and, with a trend, their products with time too), then the returned mean and slope are those of the ordinary regression line of the raw data: what is left of the data after mean and trend adds up to zero, also when multiplied by time, and no straight line is nearer to the data. With trend=False the mean is the average of the data.", "quantifier": "for all records, sampling times and constituents with that property", "why_tests_cant": "Holds for every record whatever its values; a test compares two numbers for one record.", "anchors": ["utide/_solve.py: _solv1", "utide/harmonics.py: ut_E"]}
