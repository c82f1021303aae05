"""Writes /verif/properties.jsonl (kept as a script only so that the JSON stays well formed)."""
import json, sys
P = []
def p(title, statement, quantifier, why, *anchors):
    P.append(dict(id=f"C{len(P)+1:02d}", title=title, statement=statement, quantifier=quantifier,
                  why_tests_cant=why, anchors=list(anchors)))

S="utide/_solve.py"; R="utide/_reconstruct.py"; CS="utide/constituent_selection.py"; EP="utide/ellipse_params.py"
T="utide/_time_conversion.py"; H="utide/harmonics.py"; A="utide/astronomy.py"; D="utide/diagnostics.py"
CF="utide/confidence.py"; PG="utide/periodogram.py"; RF="utide/robustfit.py"; U="utide/utilities.py"; UC="utide/_ut_constants.py"

p("reconstruct of an elevation solution is the least-squares best tidal curve",
  "For a scalar series solved with method='ols' (no inference or exact inference, every constituent kept), reconstruct at the sample times using all constituents has a sum of squared misfits to u that is no larger than that of any other curve of the form mean + slope*(t-tref) + sum_k amplitude_k*(nodally corrected cosine of constituent k with any phase), the slope being absent when trend=False and inferred constituents being tied to their reference.",
  "every series u, every set of times, every constituent list, every option combination, every competing curve",
  "A test can compare against a handful of competing curves; optimality quantifies over all of them and all data.",
  f"{S}: _solv1", f"{R}: _reconstruct", f"{EP}: ut_cs2cep")
p("reconstruct of a current solution is the least-squares best tidal current",
  "As C01 for a vector series (u, v): the reconstructed (u, v) minimises the total squared misfit over all tidal-ellipse signals with the selected constituents; in particular the ellipse parameters Lsmaj, Lsmin, theta, g lose nothing of the fitted rotary coefficients, whatever branch of the angles is taken.",
  "every vector series, times, constituents, options, competing tidal current",
  "The angle wrap-arounds (theta mod 180, g mod 360) have infinitely many branch combinations.",
  f"{S}: _solv1", f"{R}: _reconstruct", f"{EP}: ut_cs2cep")
p("a purely tidal record is reproduced exactly",
  "If the input series is exactly a tidal curve of the selected constituents (plus mean, plus trend if trend=True), then reconstruct at the sample times with all constituents returns the input values, for scalar and vector series, even when the constituents cannot be separated by the record (rank-deficient model).",
  "all times, all amplitudes and phases, all constituent lists including inseparable ones",
  "The round trip in the test-suite is one M2 tide on one time axis.",
  f"{S}: _solv1", f"{R}: _reconstruct")
p("known amplitudes and phases are recovered",
  "If the record separates the chosen constituents (the model columns are linearly independent) and the series is mean + slope*(t-tref) + sum_k A_k*Re(E_k(t)*exp(-i g_k)) with A_k >= 0, solve returns A_k, the phase g_k (mod 360, where A_k > 0), the mean and the slope; for currents it returns Lsmaj, Lsmin and the (theta, g) pair up to the 180 degree ambiguity.",
  "all amplitudes, phases, means, slopes, constituent lists and times with independent columns",
  "Exact recovery is an infinite family of identities; tests check one constituent to four decimals.",
  f"{S}: _solv1", f"{EP}: ut_cs2cep")
p("changing the units of the series scales the answer",
  "Multiplying u (and v) by a positive constant c multiplies A, Lsmaj, Lsmin, mean, slope by c and leaves g, theta, PE and the selected constituents unchanged, and also their order unless they are ranked by SNR; multiplying a scalar series by -1 leaves A unchanged and shifts every phase with A > 0 by 180 degrees.",
  "every series, every c, every option combination with method='ols'",
  "Metamorphic relation over all inputs and scale factors.",
  f"{S}: _solv1", f"{EP}: ut_cs2cep", f"{D}: _PE")
p("a constant offset only moves the mean, a linear drift only moves the slope",
  "With independent model columns, adding a constant to u changes mean by that constant and no constituent; adding b*(t-tref) with trend=True changes slope by b and nothing else.",
  "every series, offset, drift and times with independent model columns",
  "Metamorphic relation over all inputs.",
  f"{S}: _solv1")
p("a scalar series and a vector series with v = 0 give the same tide",
  "solve(t, u, 0) returns Lsmaj = A, Lsmin = 0, theta = 0 and the same g, umean, uslope as solve(t, u), with vmean = vslope = 0. Robust fits too, with the same weights.",
  "every u, times, constituent list",
  "Agreement of the two code paths for all data.",
  f"{S}: _solv1", f"{EP}: ut_cs2cep")
p("rotating the coordinate axes rotates only the ellipse orientation",
  "Rotating (u, v) by an angle phi leaves Lsmaj and Lsmin of every constituent unchanged and adds phi to theta modulo 180 (g changing by a multiple of 180 accordingly) unless the ellipse is a circle, for which theta and g are determined only in combination.",
  "every vector series and every angle",
  "Metamorphic relation over a continuum of angles.",
  f"{S}: _solv1", f"{EP}: ut_cs2cep")
p("ranges of the returned ellipse parameters",
  "Every returned constituent has A >= 0 and 0 <= g < 360 (scalar) or Lsmaj >= |Lsmin| and 0 <= theta < 180 and 0 <= g < 360 (vector), including inferred constituents.",
  "every input for which solve returns",
  "Must hold for every input, including degenerate (zero-amplitude) ones.",
  f"{EP}: ut_cs2cep", f"{S}: _solv1")
p("ellipse parameters mean what the documentation says",
  "For cosine/sine coefficients (Xu, Yu, Xv, Yv), the current traced over one cycle has greatest speed Lsmaj and least speed |Lsmin|, it points along +theta with speed Lsmaj at phase g, and it rotates counter-clockwise iff Lsmin > 0.",
  "all coefficient quadruples and all phases of the cycle",
  "Extremum over a continuous cycle for all coefficients.",
  f"{EP}: ut_cs2cep")
p("inferred constituents keep the prescribed ratio and phase offset",
  "With infer given for a scalar series, each inferred constituent's amplitude is |amp_ratio| times its own reference's amplitude and its phase is the reference phase minus phase_offset (mod 360, non-negative ratio), the pairing being the one the caller wrote even when one reference serves several inferred constituents or references are interleaved.",
  "every inference specification, series and times with a real least-squares solution",
  "Pairing must hold for every arrangement of names.",
  f"{S}: _solv1", f"{CS}: ut_cnstitsel")
p("layout of names with inference",
  "coef.name lists the non-reference constituents, then each distinct reference once in order of first appearance, then the inferred constituents grouped by reference; name, aux.frq, aux.lind all have length nNR+nR+nI before re-ordering; references and inferred constituents never also appear as non-reference constituents.",
  "every constituent list and inference specification",
  "All arrangements of names.",
  f"{CS}: ut_cnstitsel")
p("approximate inference",
  "infer.approximate=True is documented as 'use approximate method': an approximate correction of the reference for the inferred constituents. The fitted reference coefficients should depend on amp_ratios and phase_offsets.",
  "every inference specification with approximate=True",
  "A statement about dependence on all parameter values.",
  f"{S}: _solv1 (lines 278-293)")
p("inference options are validated",
  "An infer option lacking a required key, with differing numbers of inferred and reference names, or with amp_ratios/phase_offsets of the wrong length (N scalar, 2N vector) is rejected with ValueError before any computation, and a complete one, given as dict or Bunch, is accepted.",
  "every infer dictionary",
  "All key subsets and lengths.",
  f"{S}: validate_infer")
p("automatic constituent selection follows the Rayleigh criterion",
  "With constit='auto' (no inference) coef contains exactly those catalogue constituents whose frequency separation df from their comparison constituent is at least Rayleigh_min/(record length in hours), each once; Z0 and constituents without a comparison constituent are never chosen when Rayleigh_min > 0.",
  "every record length and Rayleigh_min",
  "All thresholds.",
  f"{CS}: ut_cnstitsel", f"{S}: _solv1")
p("longer records and weaker criteria only add constituents",
  "If the record length does not decrease and Rayleigh_min does not increase, the automatically selected set can only grow.",
  "all pairs of record lengths and criteria",
  "Monotonicity over all pairs.",
  f"{CS}: ut_cnstitsel")
p("an explicit constituent list is honoured",
  "With constit given as a list (no inference, order_constit equal to that list) coef.name is exactly that list; an unknown name makes solve raise KeyError and return nothing.",
  "every list of names",
  "All lists.",
  f"{CS}: ut_cnstitsel", f"{S}: _reorder")
p("name, frequency and catalogue index stay aligned",
  "In every coef returned by solve, for every position i, aux.lind[i] is the catalogue index of name[i] and aux.frq[i] is that constituent's frequency at the reference time, whatever order_constit, constit and infer were.",
  "every successful solve",
  "All option combinations and orders.",
  f"{CS}: ut_cnstitsel", f"{S}: _reorder")
p("misspelt options are rejected",
  "solve rejects its keywords with KeyError iff some keyword is not a documented option name (the names strict and self, which collide with internal parameters, give TypeError instead), before looking at the data; otherwise unspecified options take the documented defaults and specified ones the given value.",
  "every keyword dictionary",
  "All key sets.",
  f"{S}: _process_opts", f"{U}: Bunch.update_values")
p("nodal and phase options select the documented correction mode",
  "nodal in {True, False, 'linear_time'} and phase in {'Greenwich', 'raw', 'linear_time'} each independently select exact, none or reference-time corrections in the fit, and reconstruct uses the same mode as the solve that produced coef.",
  "all nine combinations, any other options",
  "Cross product with all data.",
  f"{S}: _translate_opts", f"{S}: _slvinit", f"{S}: _solv1", f"{R}: _reconstruct")
p("conf_int and order_constit are validated",
  "conf_int other than 'linear', 'MC', 'none' raises ValueError; order_constit='SNR' with conf_int='none' raises ValueError, as does any other unknown string; None means 'PE'.",
  "every option value",
  "All strings.",
  f"{S}: _translate_opts", f"{S}: validate_order_constit")
p("calls do not disturb the defaults or one another",
  "solve never changes the default option table, so a sequence of calls gives each call the same result as if it were the first; the caller's option values are not modified, except that a caller-supplied infer Bunch without 'approximate' gains approximate=False.",
  "every sequence of calls",
  "All histories.",
  f"{S}: _process_opts, default_opts, validate_infer")
p("verbose=False is silent",
  "solve(..., verbose=False) and reconstruct(..., verbose=False) print nothing; with verbose true a successful solve prints exactly 'solve: matrix prep ... solution ... done.' and reconstruct 'prep/calcs ... done.'.",
  "every call",
  "All inputs and options.",
  f"{S}: _solv1", f"{R}: _reconstruct")
p("missing latitude and mismatched shapes are rejected",
  "solve raises ValueError when lat is None, when t and u are not 1-D of equal length, or when v has a different shape; no result is returned.",
  "every argument shape",
  "All shapes.",
  f"{S}: _slvinit")
p("the epoch only relabels time",
  "Numeric times t with epoch E denote the instants E + t days: normalised time for (t, epoch=E), for the datetimes E + t days with epoch None, for t + ordinal(E) with 'python' and for t + ordinal(E) + 366 with 'matlab' all coincide.",
  "every epoch date and every time",
  "All dates and offsets.",
  f"{T}: _normalize_time, _date2num, _python_gregorian_datenum")
p("datetimes map to proleptic Gregorian day numbers",
  "The normalised time of midnight of a calendar date is the number of days from 0000-12-31 (1 for 0001-01-01, one more for each following calendar day), and fractions of a day are exact to the millisecond.",
  "every calendar date",
  "All dates, including leap and century rules.",
  f"{T}: _DAY_TO_GREGORIAN_EPOCH, _date2num")
p("numeric times without an epoch",
  "docs/strategy.rst: 'The default is epoch=python' - numeric t without epoch should be taken as days since 0000-12-31.",
  "every numeric time array",
  "All times.",
  f"{T}: _normalize_time", "docs/strategy.rst")
p("unusable time inputs are rejected",
  "With an epoch, an array of unsigned-integer, boolean, string or datetime type raises ValueError, and integer or floating arrays are accepted.",
  "every time dtype and every epoch value",
  "All dtypes and epochs.",
  f"{T}: _normalize_time")
p("missing values are dropped row by row",
  "Samples whose time is NaN have no effect whatever on solve; the fit uses exactly the samples in which t and all of u (and v) are finite and unmasked, in order, with t, u, v of the same sample kept together.",
  "every placement of NaN, infinite and masked entries",
  "Exponentially many placements.",
  f"{S}: _slvinit")
p("masked times count as missing",
  "docs/strategy.rst: solve's and reconstruct's t accept masked arrays to indicate missing values: a masked time should be treated exactly like a NaN time.",
  "every masked time array",
  "All masks.",
  f"{S}: _slvinit", f"{R}: reconstruct", f"{T}: _normalize_time", "docs/strategy.rst")
p("reconstruct is pointwise with NaN at invalid times",
  "The output has the length of t, is NaN exactly at the invalid times, and each other value depends only on its own time: reconstructing a concatenation of time arrays is the concatenation of the reconstructions.",
  "every time array and every coef",
  "All arrays and splits.",
  f"{R}: reconstruct, _reconstruct")
p("percent energy",
  "If some amplitude is non-zero, PE of every constituent lies in [0, 100], they sum to 100, and PE is unchanged by a change of units.",
  "every coef",
  "Sum over any number of constituents.",
  f"{D}: _PE")
p("order_constit re-orders every result array consistently",
  "Results are sorted by decreasing PE, decreasing SNR or increasing frequency, as requested; every per-constituent array (name, A, g, ellipse parameters, their confidence intervals, PE, SNR, frq, lind) is permuted in the same way, so no constituent's numbers change owner; with an explicit sequence the result follows that sequence and a name not in the solution raises ValueError.",
  "every solution and every requested order",
  "All permutations.",
  f"{S}: _reorder", f"{D}: ut_diagn")
p("an explicit order does not lose constituents",
  "Giving order_constit as a sequence only orders the result; it never drops or duplicates fitted constituents.",
  "every order sequence accepted by solve",
  "All sequences.",
  f"{S}: _reorder, validate_order_constit")
p("the reconstruction does not depend on the order of constituents",
  "For any permutation of the constituents of coef, reconstruct gives the same series, for the same thresholds.",
  "every coef, permutation, time and threshold",
  "All permutations.",
  f"{R}: _reconstruct", f"{S}: _reorder")
p("reconstruct uses exactly the requested constituents",
  "With constit given, exactly the constituents of coef named there (names absent from coef are ignored); else with both thresholds 0 or no confidence intervals, all; else exactly those with SNR >= min_SNR and PE >= min_PE, where SNR and PE are the values solve reports (for a solution that keeps all fitted constituents); raising the thresholds never adds a constituent unless both become 0, which switches them off; with nothing selected the output is mean (+ trend).",
  "every coef and threshold pair",
  "All thresholds and coefs, including infinite and NaN SNR.",
  f"{R}: _reconstruct", f"{D}: _PE, _SNR")
p("the diagnostics table restates the solution",
  "coef.diagn is always sorted by decreasing PE and, for a solution that keeps all fitted constituents, lists the same constituents with the same PE and SNR as coef.name, coef.PE, coef.SNR; it is absent exactly when conf_int='none'.",
  "every solution",
  "All solutions and orders.",
  f"{D}: ut_diagn", f"{S}: _solv1")
p("astronomical rates are the exact derivatives",
  "The second result of the astronomical argument routine is the exact time derivative of the first (modulo whole cycles) at every time.",
  "every time",
  "A derivative identity over the reals.",
  f"{A}: ut_astron")
p("shallow-water constituents are combinations of their parents",
  "Frequency, astronomical argument and nodal phase of every compound constituent are the catalogue's integer-weighted sums of those of its parents, hence its phase factor is the product of the parents' phase factors to those powers and its nodal amplitude the product of theirs; the result does not depend on the order in which the catalogue is processed.",
  "every compound constituent, time, latitude",
  "All times; order independence.",
  f"{H}: linearized_freqs, FUV")
p("compound constituents have continuous phase",
  "The basis function of every constituent with exact Greenwich phase depends on the astronomical angles only through whole-cycle-invariant phases: shifting any parent's argument by a whole cycle does not change it.",
  "every constituent of the catalogue and every time",
  "All times.",
  f"{H}: FUV", "utide/data/ut_constants.npz: shallow.coef (M7 = 3.5 M2)")
p("linear_time corrections agree with the exact ones at the reference time",
  "phase='linear_time' and nodal='linear_time' give the same factors as the exact modes at the reference time; the linear-time phase of every non-compound constituent is the first-order expansion of the exact phase there.",
  "every constituent, latitude and reference time",
  "Derivative statement for every time.",
  f"{H}: FUV, linearized_freqs", f"{A}: ut_astron")
p("raw phases are pure sinusoids",
  "With nodal=False and phase='raw' the basis function of a constituent of frequency f is exp(2 pi i 24 f (t - tref)): unit modulus, 1 at tref, multiplicative in time.",
  "every time and frequency",
  "All times.",
  f"{H}: ut_E")
p("latitude handling",
  "Nodal corrections are defined for every latitude from -90 to 90; latitudes within 5 degrees of the equator are treated as 5 degrees on the same side; latitude is irrelevant when nodal=False.",
  "every latitude",
  "A continuum of latitudes.",
  f"{H}: FUV")
p("the two raw-phase code paths agree",
  "With phase='raw', the shortcut used when nodal=False and the general routine give the same astronomical argument for constituents produced by the selection step.",
  "every constituent and time",
  "All times and catalogue entries.",
  f"{H}: ut_E, FUV", f"{CS}: ut_cnstitsel")
p("robust weights are legitimate weights",
  "Every robust weight function that can be applied to a residual array gives weights in [0, 1], even in the residual, 1 at zero residual, and non-increasing in its size.",
  "every residual",
  "A continuum of residuals.",
  f"{RF}: andrews, bisquare, cauchy, fair, huber, logistic, ols, talwar, welsch")
p("all documented weight functions are usable",
  "Each of the nine named weight functions accepts an array of residuals of any length.",
  "every weight function and residual array",
  "All arrays.",
  f"{RF}: wfuncdict, andrews, huber, logistic")
p("the robust iteration terminates and keeps the best fit",
  "robustfit performs at most maxit least-squares solutions, reports 1 <= iterations <= maxit, and its weighted mean-square misfit is the smallest of all fits it accepted; it stops with the last fit when the improvement is below tol, and with the previous one when the fit got worse.",
  "every sequence of least-squares results, tol, maxit >= 1",
  "All iteration histories.",
  f"{RF}: robustfit")
p("the returned weights belong to the returned coefficients",
  "rf.b is the least-squares solution of the problem weighted with rf.w, and rf.rms_resid is the rms of y - X rf.b.",
  "every history of the iteration",
  "All histories, including those that stop at maxit.",
  f"{RF}: robustfit")
p("robust fitting with the 'ols' weights is ordinary least squares",
  "robustfit(weight_function='ols') returns the ordinary least-squares coefficients with unit weights.",
  "every problem",
  "All problems.",
  f"{RF}: robustfit, ols")
p("linear confidence intervals are first-order error propagation",
  "With conf_int='linear', A_ci and g_ci (Lsmaj_ci, Lsmin_ci, theta_ci, g_ci for currents) are 1.96 times the first-order propagated standard error of the corresponding ellipse parameter, i.e. the root of the sum over cosine/sine coefficients of (partial derivative times standard deviation) squared.",
  "all coefficients away from degenerate ellipses and all standard deviations",
  "Partial-derivative identities over R^4.",
  f"{CF}: ut_linci, _confidence")
p("coloured-noise scaling preserves residual power",
  "For a scalar series with white=False the cosine and sine variances are rescaled so that they sum to the residual power in the constituent's band, keeping their ratio.",
  "all variances and spectra",
  "All values.",
  f"{CF}: _confidence")
p("confidence intervals of currents do not depend on the axes' names",
  "Exchanging the roles of the two velocity components (a relabelling of axes) does not change Lsmaj_ci and Lsmin_ci.",
  "every vector series with conf_int='linear'",
  "Metamorphic relation over all data.",
  f"{CF}: _confidence (lines 247-255)")
p("confidence intervals are non-negative and one per constituent",
  "Whenever they are numbers, all *_ci values are >= 0 and each array has one entry per constituent, inferred ones included.",
  "every solution with confidence intervals",
  "All solutions.",
  f"{CF}: _confidence, ut_linci")
p("Monte-Carlo intervals with inference are refused",
  "conf_int='MC' together with infer raises NotImplementedError and returns nothing.",
  "every data set and inference specification",
  "All data.",
  f"{CF}: _confidence")
p("phase clustering",
  "Before Monte-Carlo spreads are computed, angles are moved by whole turns to within half a turn of the first one, which is unchanged.",
  "every list of angles and every positive period",
  "All real angles.",
  f"{CF}: cluster")
p("Monte-Carlo orientation spread respects the 180 degree ambiguity",
  "Orientations theta are equivalent modulo 180; equivalent samples should be treated alike when theta_ci is computed.",
  "every sample of orientations",
  "All samples.",
  f"{CF}: _confidence (line 345), cluster")
p("nearestSPD returns a symmetric matrix after a bounded number of adjustments",
  "nearestSPD returns after at most 101 adjustments; its result is symmetric whenever the adjustment loop converges; before adjustment it is the closest symmetric positive semidefinite matrix to its argument in the Frobenius norm.",
  "every square matrix and every outcome of the positive-definiteness test",
  "All matrices, all loop histories.",
  f"{CF}: nearestSPD, _is_PD")
p("band averages are averages of the right periodogram values",
  "Each band value lies between the least and greatest periodogram value used in that band, excludes the values nearest to constituent frequencies, and is linear in the periodogram; a band without usable values is NaN.",
  "every periodogram, frequency grid, constituent list",
  "All grids.",
  f"{PG}: fbndavg")
p("band averages use only frequencies inside the band",
  "The value for the band [f0, f1] is the mean of the periodogram at frequencies between f0 and f1.",
  "every frequency grid",
  "All grids.",
  f"{PG}: fbndavg")
p("the one-sided spectrum preserves variance",
  "For an evenly sampled real series of even length, the sum of the one-sided spectral density times the frequency step equals the window-weighted variance (Parseval), and the density is non-negative.",
  "every series, window and sampling rate",
  "All series.",
  f"{PG}: _psd, band_psd")
p("co-spectrum is bounded by the auto-spectra",
  "For a vector series |Puv|^2 <= Puu*Pvv in every band, and Puu = Pvv = Puv when u = v (both for the FFT and the Lomb-Scargle branch).",
  "every vector series",
  "All series.",
  f"{PG}: _psd, _ls_cross, fbndavg, band_psd")
p("noise bands are unambiguous and cover the catalogue",
  "The nine frequency bands are disjoint and increasing, and every catalogue constituent except Z0 lies in exactly one; a constituent outside all bands gets zero noise power.",
  "every frequency; every catalogue entry",
  "All real frequencies.",
  f"{PG}: freq_bands", f"{CF}: band_averaged_psd_by_constit")
p("Lomb-Scargle frequency grid",
  "No band contributes more than 500 frequencies; they are increasing within a band and taken from (or interpolated between) the record's Fourier frequencies.",
  "every time axis",
  "All axes.",
  f"{PG}: _lomb_freqs")
p("Bunch.update_values never changes the set of keys",
  "update_values with strict raises KeyError iff an unknown key is given and then changes nothing; without strict unknown keys are ignored; in both cases later sources and keyword arguments take precedence and no key is added or removed.",
  "every Bunch and every sequence of sources",
  "All dictionaries.",
  f"{U}: Bunch.update_values, _check_strict")
p("Bunch.update_None only fills gaps",
  "update_None changes only entries whose value is None, with the same strictness rule.",
  "every Bunch and every sequence of sources",
  "All dictionaries.",
  f"{U}: Bunch.update_None")
p("Bunch attribute access is item access",
  "b.x = v followed by b['x'] gives v, and b.x equals b['x'] for every key that is not the name of a dict/Bunch method; a missing attribute raises AttributeError.",
  "every sequence of attribute and item assignments",
  "All histories.",
  f"{U}: Bunch.__getattr__, __setattr__")
p("catalogue dictionaries are consistent",
  "constit_index_dict is a bijection between names and catalogue positions; cycles_per_hour and hours_per_cycle are keyed by the same names and are reciprocal (infinite period only for Z0).",
  "every catalogue name",
  "Whole-table statement.",
  f"{UC}: constit_index_dict, cycles_per_hour, hours_per_cycle")
p("reference time and record length",
  "coef.aux.reftime is the midpoint between the first and last usable time (all valid times if these are evenly spaced, else the times with valid data); for increasing times it lies inside the record, and evenly spaced times are always recognised as such.",
  "every time axis and missing-value pattern",
  "All axes.",
  f"{S}: _slvinit")
p("the robust solution solves the estimating equations of its weight function",
  "When robustfit stops before maxit, the returned coefficients satisfy sum_i w_i conj(X_ij) (y_i - (X b)_i) = 0 for every column j with the returned weights w, as iteratively reweighted least squares should.",
  "every problem, weight function and tuning constant",
  "All problems; the fit multiplies rows by w, which minimises the residuals weighted with w squared.",
  f"{RF}: robustfit")
p("linearised intervals are those of textbook least squares",
  "With method='ols', conf_int='linear', white=True and no inference, the amplitude and phase (or ellipse) of each constituent are those of the best linear unbiased estimates of its cosine and sine coefficients, and each interval is 1.96 standard errors propagated to first order from the standard errors of these estimates, the noise variance being the least residual sum of squares over (samples - parameters).",
  "every record, scalar or vector, and every constituent",
  "An optimality statement over all linear estimators and all data.",
  f"{CF}: _confidence, ut_linci", f"{S}: _solv1")
p("asking for confidence intervals does not change the fit",
  "Two calls of solve whose options agree except for conf_int, white, MC_n and verbose return the same names, ellipses, mean, trend, frequencies, weights and (where both are given) percent energies, unless the order of constituents is by SNR.",
  "every pair of calls that return",
  "A relation between two runs for all inputs.",
  f"{S}: _solv1, _process_opts, _reorder", f"{CF}: _confidence")
p("intervals exist exactly when the data over-determine the model",
  "For ordinary least squares without inference: if the sample times separate the constituents and there are more samples than parameters, the call with intervals returns (white noise floor, or linear with coloured noise and even sampling); if a call returns intervals, the times separate the constituents and there are more samples than parameters.",
  "every record and option set",
  "All records, including rank-deficient ones.",
  f"{CF}: _confidence", f"{S}: _solv1")
p("basis functions are the textbook tidal harmonics",
  "The basis function of every constituent except M7 is: for a primary constituent the equilibrium argument built from the mean longitudes of moon, sun, perigee, node and solar perigee, modulated by 1 plus the sum of its satellites (ratio, latitude factor outside 5 degrees of the equator, phase), each taken at the time the nodal and phase modes say; for a compound the product of its parents' functions to the catalogue powers. M7 is a square root of the seventh power of M2's.",
  "every constituent, time, latitude, reference time and mode",
  "All times and latitudes.",
  f"{H}: FUV, ut_E, linearized_freqs", f"{A}: ut_astron")
p("documented option values are accepted in every combination",
  "Any combination of documented values of the options (infer not used) passes option processing.",
  "every option dictionary with documented names and values",
  "The cross product of all options, with arbitrary numbers, lists and robust_kw.",
  f"{S}: _process_opts, _translate_opts, validate_order_constit, _slvinit")
p("sound calls return",
  "A call of solve by ordinary least squares, without confidence intervals and inference, with documented options, known constituents (a non-empty list or 'auto'), arrays of equal 1-D shape, readable times, at least one usable sample, a latitude other than 0 (unless nodal=False) and a record of positive length (if a trend is fitted) returns a result.",
  "every record, option set and constituent list",
  "Totality over all inputs.",
  f"{S}: solve, _solv1, _slvinit", f"{CS}: ut_cnstitsel", f"{H}: ut_E")
p("the analysis is additive",
  "With method='ols' and the same times, gaps and options, solving for the sum of two records gives, constituent by constituent, the sum of the two solutions (A cos g and A sin g, or the two rotating components of the ellipse), of the means and of the slopes.",
  "every pair of records with the same gaps, every option set, also rank-deficient problems",
  "A relation between three runs for all inputs.",
  f"{S}: solve, _solv1", f"{EP}: ut_cs2cep")
p("detiding is complete and the analysis idempotent",
  "With method='ols' and exact inference or none: if the reconstruction of everything is subtracted from the record, solve finds zero amplitudes, zero mean and zero slope in what is left; if the record is replaced by the reconstruction, solve returns the same coefficients again.",
  "every record and option set",
  "Three chained calls for all inputs.",
  f"{S}: solve, _solv1", f"{R}: reconstruct, _reconstruct")
p("nothing of the model is left in the residual",
  "With method='ols' and exact inference or none, the residual (record minus reconstruction of everything) has zero mean, is uncorrelated with time if a trend was fitted and with the harmonics of every constituent not tied by inference, and the sum of squares of the samples is that of the reconstruction plus that of the residual.",
  "every record and option set",
  "All inputs, including rank-deficient problems.",
  f"{S}: solve, _solv1", f"{R}: reconstruct, _reconstruct")
p("the order of the samples does not matter",
  "With method='ols', giving the same samples (time and values) in another order changes neither the ellipse of any constituent nor the mean level and trend as a function of time, provided the same constituents are analysed and the times separate them.",
  "every record, every permutation of its rows, every option set",
  "All permutations. False for phase='raw' or the linearised times: the reference time is the middle between the first and the last sample in the order given.",
  f"{S}: solve, _slvinit, _solv1", f"{H}: ut_E")
p("a prediction stays within the amplitudes",
  "reconstruct never departs from mean level and trend by more than the sum, over the constituents it uses, of nodal factor times major semi-axis (or amplitude); with nodal=False by more than the sum of the amplitudes.",
  "every coefficient set returned by solve, every time",
  "All times, including those far outside the record.",
  f"{R}: reconstruct, _reconstruct", f"{H}: ut_E, FUV")
p("a robust analysis follows the units and added tides",
  "With method='robust', multiplying the record by any non-zero number and adding to it any curve of the model (mean, trend, tides of the analysed constituents) gives the same weights and number of iterations, and coefficients multiplied by the number plus those of the curve; the rms residual is multiplied by its modulus. robustfit raises an error for both records or for neither.",
  "every record, weight function and option set; every factor, every added curve",
  "A relation between two iterative fits for all inputs.",
  f"{RF}: robustfit, sigma_hat, r_normed", f"{S}: solve, _solv1")
p("weights lie between 0 and 1",
  "coef.weights has one entry for each usable sample (finite time, unmasked finite data), every entry lies in [0, 1], and all are 1 for method='ols'.",
  "every call of solve that returns",
  "All inputs and weight functions.",
  f"{RF}: robustfit, bisquare, cauchy, fair, ols, talwar, welsch", f"{S}: _solv1")
p("the signal-to-noise ratio means what the documentation says",
  "coef.SNR exists exactly when intervals were asked for, has one entry per constituent, and is A**2/(A_ci/1.96)**2 (for currents (Lsmaj**2+Lsmin**2)/((Lsmaj_ci/1.96)**2+(Lsmin_ci/1.96)**2)) of the returned arrays, whatever the order of the constituents; a zero interval gives inf, a NaN interval NaN.",
  "every call of solve that returns, every order",
  "Tests compare one stored array; the relation between the four returned arrays holds for all inputs.",
  f"{D}: _SNR, ut_diagn", f"{S}: _solv1, _reorder")
p("linear confidence intervals follow the units",
  "With conf_int='linear' (white or coloured noise floor, with or without inference, method='ols' or robust), multiplying the record by k > 0 multiplies A_ci, Lsmaj_ci and Lsmin_ci by k and leaves g_ci, theta_ci, SNR, PE, the diagnostics table and the order of the constituents unchanged, also for order_constit='SNR'.",
  "every record, every positive factor, every option set with linear intervals",
  "A relation between two runs through spectra, covariances and error propagation, for all inputs.",
  f"{CF}: _confidence, ut_linci, band_averaged_psd_by_constit", f"{PG}: band_psd, _psd, _psd_lomb", f"{D}: _SNR", f"{S}: solve")
p("an offset or drift does not change the intervals",
  "With method='ols' and constituents the record separates, adding a constant (and, with trend=True, a linear drift) to the record leaves every ellipse parameter, every confidence interval (linear or Monte-Carlo with the same random numbers, white or coloured noise, with or without exact inference), PE, SNR, diagnostics and the order of the constituents unchanged.",
  "every record, every offset and drift, every option set with method='ols'",
  "varMSM and the pseudo-variance are computed from the raw record, mean included; that they do not depend on it follows from orthogonality of the residual for all inputs.",
  f"{CF}: _confidence lines 193-200", f"{S}: _solv1", f"{D}: ut_diagn")
p("printing a Bunch lists every entry once, in the order of the keys",
  "str(b) of a Bunch with at least one entry has one line for each entry, sorted by key whatever the order of insertion, with the full key and the full text of the value (or its type with types=True); the columns are as wide as the longest key and value but at most 20 and 40. An empty Bunch, or one holding an empty Bunch, cannot be printed (ValueError).",
  "every Bunch with string keys",
  "All contents, key lengths and insertion orders.",
  f"{U}: Bunch.formatted, Bunch.__str__")
p("loadbunch returns what is in the file",
  "For a .mat or .npz file loadbunch returns a Bunch with exactly the variables whose names do not begin with '__', in their order; structures become nested Bunches with the same fields; a single element is returned as such, any other array with the same elements, order and dtype without the dimensions of length 1; exactly the non-finite elements of float arrays are masked (none with masked=False). Other file names raise ValueError.",
  "every file content, any depth of nesting",
  "Arbitrary nesting and contents.",
  f"{U}: loadbunch, _structured_to_bunch, _crunch")
p("showmatbunch lists every item once",
  "showmatbunch(b) prints one line for every item of the Bunch and of the Bunches nested in it, named by the keys joined with dots, sorted by that name, with the string itself if shorter than 50 characters; a Bunch without items raises ValueError.",
  "every nested Bunch",
  "Arbitrary nesting and contents.",
  f"{U}: showmatbunch, _showmatbunch")
p("convert_unicode_arrays does what its documentation says",
  "convert_unicode_arrays keeps the keys, turns arrays of strings into object arrays of strings with trailing white space removed, also inside nested dicts and object arrays, and leaves everything else unchanged.",
  "every nested dict",
  "Arbitrary nesting and contents.",
  f"{U}: convert_unicode_arrays")
p("intervals of inferred constituents follow from those of the reference",
  "With conf_int='linear' and a scalar record, the amplitude interval of a constituent inferred with ratio r is r times that of its reference constituent, and the phase interval is the same, since its amplitude is r times the reference amplitude and its phase a constant offset.",
  "every scalar record, every amplitude ratio and phase offset",
  "Relation between two entries of the returned arrays for all inputs; no test has inference with intervals compared to theory.",
  f"{CF}: _confidence lines 355-396, ut_linci", f"{CS}: ut_cnstitsel")
p("inferring some constituents leaves the intervals of the others right",
  "With conf_int='linear', white=True and method='ols' on a scalar record, the interval of a constituent that is fitted directly is 1.96 standard errors, propagated to first order from the best linear unbiased estimates of its two coefficients, also when other constituents are inferred (the inferred coefficients tied to those of their references, one parameter pair fewer for each).",
  "every scalar record, every exact inference specification",
  "Compares covariance bookkeeping over columns with the theory of least squares, for all records and all inferences.",
  f"{CF}: _confidence lines 193-262", f"{S}: _solv1 (columns of B)")
p("nodal corrections stay within known limits",
  "At every time and every latitude (not exactly 0), in every nodal mode, the amplitude factor F and phase shift U of a primary constituent are those of a complex number no further from 1 than a fixed limit (0.044 for M2, 0.003 for S2, 0.043 for N2, 0.164 for K1, 0.218 for O1, 0.351 for K2, ...; 0 for constituents without satellites); compounds lie between the products of their parents' limits. No harmonic vanishes, except possibly NO1, OO1 and UPS1, whose satellites may outweigh the main line.",
  "every time, every latitude, every nodal mode, all 146 constituents",
  "Holds over all times and latitudes; tests sample a handful.",
  f"{H}: FUV, ut_E")
p("the components of a current are analysed independently",
  "With method='ols', solving for a current (u, v) gives, constituent by constituent, the rotating components a+ib of the results a for u alone and b for v alone (both with the common gaps), the mean and trend of the components, and reconstruct of the current returns the two reconstructions; also with exact or approximate inference, the same ratio and offset given for both directions of rotation.",
  "every pair of series with any gaps, any constituents, options and prediction times",
  "Relates three calls for all data and all options; a test compares a few examples at best.",
  f"{S}: _solv1", f"{R}: _reconstruct", f"{EP}: ut_cs2cep")
p("more constituents never fit worse",
  "If an analysis with method='ols' has all the constituents of another analysis of the same record (by any method, same nodal and phase options), fits a trend if the other does and infers no more than the other, the sum of squared differences between the samples and its reconstruction is not larger.",
  "every record, every pair of nested option sets",
  "Compares two calls for all records and all nested choices of constituents.",
  f"{S}: _solv1", f"{R}: _reconstruct", f"{CS}: ut_cnstitsel")
p("how the constituents are listed does not matter",
  "With method='ols', listing the same constituents in another order (or having them chosen by 'auto') gives the same amplitude and phase (ellipse) for each of them, the same mean and trend, and the same reconstruction, also when the constituents cannot be separated, and with inference.",
  "every record, every list of constituents and every permutation of it",
  "All permutations of all lists on all records, including rank-deficient cases where least squares has no unique solution.",
  f"{S}: _solv1, _reorder", f"{CS}: ut_cnstitsel")
p("the two spectral estimators agree on evenly spaced records",
  "For an evenly spaced record with an even number of samples, the Lomb-Scargle densities and cross-spectrum used for irregular records equal, at every Fourier frequency strictly between 0 and the Nyquist frequency, those of the FFT used for regular records, whatever the window and the time of the first sample; in band_psd, records up to 2490 hours get the same spectra with equi=True and equi=False at all frequencies of the latter.",
  "every evenly spaced record, window, origin and sampling interval",
  "Two different algorithms (FFT, least-squares periodogram with phase shift and interpolated window) must carry the same normalisation for all inputs.",
  f"{PG}: _psd, _psd_lomb, _ls_cross, _lomb_freqs, band_psd")
p("spectra do not depend on the origin of time",
  "band_psd gives the same band-averaged densities of u, v and their co-spectrum when a constant is added to all times, evenly sampled or not ('time [days] relative to an arbitrary origin').",
  "every record, every shift, every set of constituent frequencies",
  "All shifts of all records, including those where the phase shift tau is undetermined.",
  f"{PG}: band_psd, _psd_lomb, _ls_cross")
p("the Lomb-Scargle density is the power of the best-fitting sinusoid",
  "On any sample times, the density of u (v) at a frequency is n dt / sum(w^2) times the reduction of the sum of squares of the tapered, mean-free series by the best-fitting sinusoid of that frequency; the taper w is the given window, defined on an even grid over the record, read off linearly at the sample times, and dt the mean sampling interval.",
  "every irregular record, every window and every list of frequencies",
  "Optimality over all sinusoids cannot be tested by examples.",
  f"{PG}: _psd_lomb")
p("predictions for parts of the constituents add up",
  "For a result of solve that lists every constituent once, reconstruct(constit=A or B together) + reconstruct(constit=A and B in common) = reconstruct(constit=A) + reconstruct(constit=B) at every valid time, and the full prediction is that for no constituents (mean and trend) plus what each constituent adds by itself.",
  "every result, all lists of names and all times",
  "All pairs of sets of constituents; tests use one selection if any.",
  f"{R}: _reconstruct")
p("mirroring a current mirrors the answer",
  "With method='ols', changing the sign of one component of a current, exchanging the components, or any other reflection leaves Lsmaj and the constituents unchanged, changes the sign of Lsmin (sense of rotation), reflects theta with the same phase g (half turns of both together aside), and reflects mean, slope and every prediction; with inference, the same ratios and offsets being given for both directions of rotation.",
  "every current, every reflection, all options and prediction times",
  "Relates two calls for all records and reflections.",
  f"{S}: _solv1", f"{EP}: ut_cs2cep", f"{R}: _reconstruct")
p("a regular stretch of samples determines the constituents",
  "Without time-dependent nodal corrections, a stretch of 2 nc + 1 (one more with a trend) samples at a regular spacing with more than two samples per period of the fastest constituent, different frequencies given, suffices: a record made of the constituents is recovered (amplitudes, phases, mean, slope) whatever other samples there are, and with one sample more intervals can be computed. If instead all samples lie on a grid on which two constituents are aliases of each other, the coefficients are not determined and no intervals are ever returned.",
  "every list of constituents, every spacing below the Nyquist limit, records of any length with any further samples and gaps",
  "Invertibility of a matrix for all constituent lists and spacings.",
  f"{S}: _solv1", f"{H}: ut_E")
p("the returned Bunches hold what is documented",
  "The result of solve has exactly these entries, each once: name, aux, nR, nNR, nI, weights; A, g, mean for an elevation or Lsmaj, Lsmin, theta, g, umean, vmean for a current; slope (uslope, vslope) iff trend; A_ci, g_ci (Lsmaj_ci, ...), SNR, diagn iff intervals were asked for; PE iff intervals or the order by energy were asked for; rf iff the method is robust. Under each name stands the value it names, and aux holds frq, lind, reftime, lat and opt. All arrays over the constituents have one entry per name. reconstruct returns t_in, epoch, constit, min_SNR, min_PE as given, t_mpl, and h or u and v of the length of t; a single time gives arrays of length one, times with two or more axes are a ValueError; passing t_mpl back with epoch='python' gives the same prediction.",
  "every series, all options, all time arguments",
  "All combinations of the options; tests look at a few entries of a few results.",
  f"{R}: reconstruct", f"{S}: _solv1, _reorder", f"{D}: ut_diagn")
p("filling gaps with the prediction does not change the answer",
  "With method='ols', replacing missing values of a series by what reconstruct returns for those times and solving again gives the same amplitudes and phases (ellipses) and the same mean and trend line: for gaps anywhere, also before the first and after the last sample, with Greenwich phases and nodal corrections exact or off; for gaps inside the record in every nodal and phase mode, then with the same reference time. The samples must determine the constituents.",
  "every record, every set of missing samples and every choice of those filled",
  "Relates solve, reconstruct and solve again for all records and all patterns of gaps.",
  f"{S}: _slvinit, _solv1", f"{R}: _reconstruct")
p("errors in the data are not amplified in the fitted curve",
  "With method='ols', changing the values of a series changes the reconstruction at the sample times by no more in root mean square than the values were changed; changing a single value by d changes the reconstruction at that time by q d with q between 0 and 1 (leverage), and over all sample times by sqrt(q) |d|. Also when the constituents cannot be separated, with gaps, trend and exact inference.",
  "every record, every perturbation, all options",
  "A bound for all perturbations of all records, including rank-deficient designs.",
  f"{S}: _solv1", f"{R}: _reconstruct")
p("lists and tuples are taken like arrays",
  "t, u and v are documented as array_like: plain lists and tuples of numbers (times) give the same result as arrays of the same elements, in solve and in reconstruct.",
  "every record, all options, every combination of lists and arrays",
  "All combinations of argument kinds; the tests pass arrays only.",
  f"{S}: solve, _slvinit", f"{R}: reconstruct")
p("what is analysed does not depend on the measured values",
  "Two series on the same times with the same samples missing get, with the same options and any method, the same constituents at the same frequencies, the same reference time, latitude and counts (and, unless sorted by energy or signal-to-noise ratio, in the same order); with method='ols' and without intervals a call also ends alike for both: with a result, or with the same error.",
  "every two series with the same gaps, all options",
  "Relates the outcomes of all pairs of calls; a data-dependent failure or selection shows only for particular values.",
  f"{S}: _slvinit, _solv1, _reorder", f"{CS}: ut_cnstitsel")
p("listing every sample several times does not change the answer",
  "With method='ols', a record in which every row (time and values) occurs k times, in any order, gives the same amplitudes and phases (ellipses), and the same mean and trend as functions of time, as the record in which it occurs once: with Greenwich phases and nodal corrections exact or off, and in every mode if the reference time is the same. The samples must determine the constituents.",
  "every record, every number of repetitions and every order of the rows",
  "All records, repetitions and orders.",
  f"{S}: _slvinit, _solv1")
p("what was found to be zero can be left out",
  "With method='ols', leaving out of the analysis constituents whose fitted amplitude is zero (and the trend, if the fitted slope is zero) changes nothing else: the other constituents get the same ellipses, mean and trend stay as they are. The samples must determine the constituents that are kept, not those left out.",
  "every record and every choice of constituents left out, with exact inference",
  "Relates two analyses for all records and all sets of constituents.",
  f"{S}: _solv1", f"{CS}: ut_cnstitsel")
p("Monte-Carlo intervals are drawn from the distribution of the estimates",
  "With conf_int='MC', method='ols' and no inference, the intervals of each constituent are 1.96/0.6745 times the median absolute deviation, over 200 samples, of amplitude and phase (axes, inclination, phase), angles being counted around the estimate, the samples being drawn with mean the fitted cosine and sine coefficients and with covariance that of the best linear unbiased estimates: with white=True for noise of the variances and covariance of the residuals (divided by samples minus parameters), which is positive semidefinite; with white=False that matrix with the u block, the v block and the cross block scaled to the power (cross power) of the residuals in the band of the constituent, made positive definite. Every constituent gets samples of its own.",
  "every record and all options, every random number generator",
  "The covariance of the estimates must be right for every design and all residuals; with wrong cross terms the intervals are merely a little off, and random.",
  f"{CF}: _confidence, nearestSPD, cluster")
p("when Monte-Carlo intervals cannot be had",
  "With white=False, method='ols' and no inference, if solve returns linearised intervals then the same call with conf_int='MC' returns if and only if, in the band of every constituent, the residual power is a number (for currents the power of both components, and the cross power unless the residuals of the two are uncorrelated) and the fit is not perfect (in either component); otherwise it raises numpy's LinAlgError and nothing else.",
  "every record and all options",
  "An equivalence over all records; the failing cases are degenerate data that tests do not contain.",
  f"{CF}: _confidence, nearestSPD")
p("a robust analysis of a current does not depend on the axes",
  "With method='robust', the same current recorded in turned axes gives the same constituents, energies and weights, ellipses with the same axes and phases turned by the angle, and mean and trend turned.",
  "every vector record, every angle, all options",
  "Relates two robust runs for all records and angles; the dependence on the axes comes from the ordering of complex numbers in np.median and shows only for particular residuals.",
  f"{RF}: robustfit, sigma_hat", f"{S}: _solv1")
p("an elevation given as a current with zero second component has the same confidence intervals",
  "With conf_int='linear' and no inference, solve(t, u, v) with v identically zero gives each constituent the same intervals of amplitude and phase as solve(t, u).",
  "every record, every set of constituents, both noise models",
  "Relates two runs for all records; a test compares the amplitudes of one record and rarely their intervals.",
  f"{CF}: _confidence, ut_linci", f"{S}: _solv1")
p("a record given k times: how the linear intervals shrink",
  "Ordinary least squares, conf_int='linear' with white=True, no inference, n usable samples and m parameters per component: a second solve in which every row of the record occurs k times, with the same constituents and the same reference time, reports intervals for amplitude, phase, minor axis and orientation multiplied by sqrt((n - m) / (k n - m)).",
  "every record, every k >= 1, elevations and currents, every order of the repeated rows",
  "The factor holds for all records and all k; a test can only compare one doubled record.",
  f"{CF}: _confidence, ut_linci", f"{S}: _solv1")
p("the robust method returns wherever ordinary least squares does",
  "If solve(..., method='ols') returns, and whichever sample is left out the others still determine the constituents, then solve(..., method='robust') with sensible robust_kw returns too.",
  "every record, every set of constituents, every robust_kw with a documented weight function, tune not zero, maxit at least two",
  "Whether an iteration on arbitrary data ever meets a zero scale, a leverage of one or a rank-deficient weighted matrix cannot be settled by trying records.",
  f"{RF}: robustfit, sigma_hat, r_normed, leverage", f"{S}: _solv1")
p("an infinite signal-to-noise ratio means a perfect fit",
  "With conf_int='linear', white noise, method='ols' and no inference: an elevation constituent of amplitude not zero has half-widths zero and SNR infinite if some curve of the constituents passes through every sample, and otherwise positive half-widths and a positive finite SNR; one of amplitude exactly zero has NaN for all three. For a current the same holds of the SNR of constituents whose ellipse is not a circle, unless the cosine coefficient of v is exactly zero.",
  "every record, every set of constituents",
  "An equivalence over all records: that no imperfect record whatsoever gets an infinite ratio cannot be tried out.",
  f"{CF}: _confidence, ut_linci", f"{D}: ut_diagn")
p("sound calls with inference return",
  "A call of solve by OLS without confidence intervals whose options have documented values, whose data are as in C75, and whose infer is a Bunch with known names, one reference per inferred constituent and one ratio and offset each (two for currents) returns a result.",
  "every environment, record, option set and inference specification of that form with an explicit list of constituents or an automatic selection",
  "A statement about all combinations of options, constituents and inference specifications.",
  f"{S}: _process_opts, validate_infer, _solv1, _slvinit", f"{CS}: ut_cnstitsel", f"{H}: ut_E, FUV")
p("the automatic selection never asks for more than an hourly record can give",
  "Let constit be auto with Rayleigh_min at least 1, no inference and a sorting order, and let the record have no gaps, at least one sample per hour, and last more than an hour. Then there are more samples than unknowns (two per selected constituent, mean, slope); the selected frequencies are different, positive and below half the sampling frequency. If nodal corrections and phases are off or evaluated at the reference time, the samples determine every coefficient, so that a record made of the selected constituents, a mean and a trend comes back exactly, and the call returns with linearised intervals, or Monte Carlo ones with a white noise floor.",
  "every record length, sampling step up to an hour, start date in the first ten thousand years, Rayleigh_min >= 1 and data",
  "Tests try a few record lengths; whether the criterion leaves enough samples depends on the whole table of 146 separations and on every record length.",
  f"{CS}: ut_cnstitsel", f"{S}: _slvinit, _solv1", f"{H}: linearized_freqs")
p("predictions are smooth curves",
  "What reconstruct predicts from a result of solve is an analytic function of time, the same for whatever times and time format it is asked, without jumps and corners, in every nodal and phase mode (M7 excepted, C40); a level passed between two predictions is predicted for a time in between, also for the component of a current in any direction. With nodal corrections and phases off or evaluated at the reference time the prediction never changes faster than the slope plus, for every constituent, its amplitude times 2 pi over its period times its (constant) nodal factor.",
  "every record, option set, result, choice of constituents, and all times",
  "Continuity is a statement about all real times; a test sees predictions at finitely many times, and a wrap-around error shows only near the wrap.",
  f"{R}: reconstruct, _reconstruct", f"{H}: ut_E, FUV", f"{A}: ut_astron")
p("results in one correction convention convert to another",
  "Two ordinary least-squares analyses of the same record without inference that differ only in 'nodal' and 'phase' (each the same in both, or off in one and 'linear_time' in the other) describe the same tide: same mean, slope and reference time, same prediction at every time. Greenwich phases at the reference time ('linear_time') exceed raw phases by the equilibrium argument of the constituent at the reference time, with the same axes and inclination, whether or not the record determines the coefficients. Amplitudes (semi-axes) with nodal corrections at the reference time are those of the uncorrected analysis divided by the nodal factor, phases larger by the nodal angle, if the record determines the coefficients.",
  "every record, latitude, list or automatic selection of constituents (M7 excepted), scalar and vector; any nodal mode for the phase conversion, any phase mode for the nodal conversion",
  "The conversion factors depend on reference time, latitude and constituent; a test checks one of them on one record.",
  f"{S}: solve, _solv1", f"{H}: ut_E, FUV", f"{R}: reconstruct")
p("robust weights are the documented functions of the residuals",
  "A robust analysis starts from unit weights; each curve fitted is the best one (least sum of squares of weight times distance) for its weights; each further weight is the documented function (bisquare, cauchy, fair, ols, talwar, welsch) of the distance of the sample from the previous curve divided by the tuning constant, by the robust standard deviation of the distances (median distance from the median over 0.6745) and by the square root of one minus the leverage of the sample. The tuning constant is the one given, else 4.685, 2.385, 1.4, 1, 2.795, 2.985. coef.weights is the set of weights of the curve returned, or the next one if maxit (default 50) is reached. The leverage is the diagonal of the projection on the model: 1 minus the least squared distance of the curves from the record that is 1 at this sample and 0 at the others.",
  "every robust analysis that returns, every record, weight function, tuning constant, number of iterations; scalar and vector, with or without exact inference",
  "The relation between weights and residuals involves all samples and iterations; a test compares single runs.",
  f"{RF}: robustfit, leverage, sigma_hat, r_normed, bisquare, cauchy, fair, ols, talwar, welsch, tune_defaults", f"{S}: _solv1")
p("random errors in the data average out, and the reported variances are right on average",
  "If the data are a tide of separated constituents plus errors of mean zero, then with method='ols' the amplitudes (rotating components), the mean and the slope returned by solve, and what reconstruct predicts at any time, are on average those of the tide. If the errors are moreover uncorrelated with equal variance: the sum of squares of data minus reconstruction is on average that variance times the number of samples minus the number of fitted parameters, the reconstruction misses the tide by that variance times the number of fitted parameters, and (linearised intervals, white noise floor, scalar series) the variances from which the reported intervals are propagated are on average the mean squared errors of the coefficients.",
  "every probability distribution of the errors with these moments, every tide, times, gaps, options with method='ols'; scalar and vector, exact inference, with or without trend",
  "A statement about averages over all outcomes of the errors; a test draws a few.",
  f"{S}: solve, _solv1", f"{R}: reconstruct", f"{CF}: _confidence, ut_linci")
p("withheld samples are never fitted better than used ones",
  "With method='ols', remove some values from a record and analyse the same constituents with the rest. At the removed samples the sum of squares of data minus reconstruction is then at least as large as when they are used; the difference is exactly the sum of squares of the change of the curve there plus twice that at the remaining samples. If a single sample is removed, the curve fitted with it lies, at its time, between the curve fitted without it and the sample.",
  "every record, scalar or vector, every set of removed samples, with or without trend, exact inference; phase='Greenwich' and nodal true or false, or any modes as long as the reference time is the same",
  "Relates two analyses for all data and all choices of what is withheld; a test can only try some splits.",
  f"{S}: solve, _slvinit, _solv1", f"{R}: reconstruct")
p("a record without usable samples is refused",
  "Claimed: solve raises an error if no row of the record has both a finite time and a value. False: with evenly spaced times and conf_int='none' it returns, with all amplitudes, mean and trend equal to 0. What holds: with method='ols' this is the only way in which such a call can return (uneven times, and confidence intervals of either kind, make it fail), and the robust method never returns.",
  "every record without usable samples, scalar or vector, all options",
  "A test would have to think of a record of nothing but missing values; here all ways of getting an answer from no data are found.",
  f"{S}: _slvinit, _solv1", f"{CF}: _confidence", f"{RF}: robustfit")
p("leaving out constituents changes a prediction by at most their amplitudes",
  "Two predictions from the same solution for different choices of constituents (by name, min_SNR, min_PE) differ at no time by more than the sum of amplitude times nodal factor over the constituents used in only one of them. With nodal=False and only min_PE=p excluding constituents, a prediction differs from the complete one by at most k*sqrt(p/100*P), k being the number left out and P the sum of all energies.",
  "every result of solve, every time, every choice of constituents",
  "Bounds hold at every time of an endless prediction and for all solutions; tests sample a few.",
  f"{R}: _reconstruct (selection by min_SNR, min_PE, constit)", f"{D}: _PE")
p("records analysed together and separately",
  "With method='ols' and the same options and constituents (Greenwich phases, nodal exact or off, or equal reference times): if two records are analysed separately and, joined in any order, together, then the joint analysis leaves at least as much (sum of squared residuals at the samples) as the separate ones together; and if the separate analyses agree in all ellipses, mean and trend, then the joint one gives the same.",
  "all pairs of records, with gaps and in any order, scalar or vector, with and without exact inference",
  "Compares three analyses of arbitrary records; a test compares a few.",
  f"{S}: _solv1, _slvinit", f"{H}: ut_E", f"{R}: _reconstruct")
p("constituents orthogonal over the samples",
  "With method='ols' and no inference: if a record is analysed with some constituents and again with only part of them (same nodal/phase/epoch/trend options), and over the usable samples each left-out harmonic is orthogonal to constants, to the trend if fitted, and to the harmonics of the constituents kept (turning in both directions), then both analyses report the same ellipses, mean and trend for what is kept, provided the samples determine these.",
  "all records, scalar or vector, with gaps; all constituent lists, one contained in the other",
  "Compares two analyses of arbitrary records; a test compares a few.",
  f"{S}: _solv1, _slvinit", f"{H}: ut_E", f"{R}: _reconstruct")
p("in an orthogonal design the analysis is the classical one",
  "With method='ols' and no inference: if over the usable samples the harmonic h of a constituent is orthogonal to constants, to the trend if fitted, to the other constituents (turning in both directions) and to its own conjugate, and N is the sum of |h|^2 (the number of samples without nodal corrections), then the rotating parts of its ellipse are the averages (1/N) sum conj(h) x and (1/N) sum h x of the data; for an elevation with conf_int='linear', white=True, A_ci = 1.96 sqrt(2 s2/N) and g_ci = 1.96 (180/pi) sqrt(2 s2/N)/A with s2 the residual variance per degree of freedom.",
  "all records (intervals: scalar), gaps included, and all constituent lists",
  "A closed form for arbitrary records and constituent lists; a test compares numbers for a few.",
  f"{S}: _solv1, _slvinit", f"{H}: ut_E", f"{CF}: _confidence, ut_linci")
p("percent energy is the share of the energy of the predicted tide",
  "For a result of solve with harmonics of constant amplitude (nodal and phase not 'exact'), different positive frequencies, and predictions at regular times with more than two per period: the mean over m times of |reconstruct(t, coef, ...) - mean - trend|^2 tends, as m grows, to the sum over the constituents asked for of (Lsmaj^2+Lsmin^2)/2 (A^2/2) times the squared nodal factor. Without nodal corrections, 100 times the energy of the prediction for one constituent over that for all tends to its PE.",
  "all records, methods, constituent lists, selections in reconstruct and start times",
  "A limit over ever longer predictions; no finite test can show it.",
  f"{D}: _PE", f"{R}: _reconstruct", f"{H}: ut_E")
p("the order of the samples does not affect the confidence intervals",
  "Two calls of solve(conf_int='linear', method='ols', no inference) on the same samples (time, u, v) in another order, with the same options, constituents and reference time, return the same confidence intervals for the same constituent. True for white=True. False for the default white=False: given an evenly sampled record in descending order of time the noise spectrum has negative frequencies only, no frequency falls into a band, and A_ci and g_ci are NaN for every constituent inside a band; an unevenly sampled record in descending order cannot be analysed at all with conf_int='linear' or 'MC'.",
  "all records, orders of the samples and options of solve",
  "All orders of all records; a test tries one order.",
  f"{CF}: band_averaged_psd_by_constit", f"{PG}: band_psd", f"{PG}: _lomb_freqs", f"{PG}: fbndavg", f"{CF}: _confidence")
p("the frequencies of an analysis are those of utide.cycles_per_hour",
  "The frequencies solve works with are computed from the astronomical rates at the reference time, not read from the catalogue. Still, for every constituent of a result, coef.aux.frq differs from utide.cycles_per_hour[name] by at most 1e-9 cycles per hour if the reference time is within 400 years of 1900, and by at most 1e-6 in the first ten thousand years. In that era different constituents have different frequencies in the order of the published ones; with order_constit='frequency' the names therefore come in the order of cycles_per_hour; and every constituent but Z0 lies in exactly one of the noise bands, the one of its published frequency.",
  "all results of solve, whatever record, options and reference time in the stated era, and all 146 constituents",
  "All dates and constituents at once; a test looks at one record.",
  f"{H}: linearized_freqs", f"{UC}: cycles_per_hour", f"{CF}: band_averaged_psd_by_constit", f"{S}: _reorder", f"{A}: ut_astron")
p("a constituent listed more than once shares its amplitude among its rows",
  "solve accepts a constit list that names a constituent several times. With method='ols' and no inference the result then has that many rows for it, all equal; each has the amplitude (semi-axes) of the analysis with the name listed once divided by the number of rows, and the same phase and inclination. All other constituents, mean, trend and what reconstruct returns for the whole result are as if every name were listed once. (So a duplicate in the list halves the reported amplitude without any warning.)",
  "all records, options and lists of names for which the samples separate the constituents",
  "All lists and records; a test tries one list. The split is decided by the minimum-norm solution of a rank-deficient system.",
  f"{S}: _solv1", f"{CS}: ut_cnstitsel", f"{R}: _reconstruct")
p("constituents the samples cannot tell apart share the tide",
  "If, over the samples, the harmonic of one constituent is a multiple of that of another (aliases of each other on a regular grid) or is constant (a whole number of periods between samples, like S2 at two samples per day), the call succeeds without warning when no intervals are asked for. With method='ols', no inference: aliases without nodal corrections get the same amplitude (Lsmaj, Lsmin up to sign) and each contributes the same at the samples; a constituent with constant harmonic gets an amplitude of twice the mean reported; if it is the only one and no trend is fitted, that mean is a third of the average of the data.",
  "all records, options, lists of names and sampling grids",
  "All records and grids; the split is decided by the minimum-norm solution of a rank-deficient system, and a test sees one case.",
  f"{S}: _solv1", f"{H}: ut_E")
p("what 'linear_time' costs against exact phases and nodal corrections",
  "For every constituent but M7 the exact Greenwich argument stays within 6e-6 cycles per (10000 days)^2 of the linear one (argument at the reference time plus reported frequency times time elapsed), in the years -800 to 4600: 0.0022 degrees in 27 years. Hence, without inference and with method='ols', the root sum of squares that an analysis with phase='linear_time' or 'raw' leaves exceeds that of phase='Greenwich' (and the other way round) by at most 2 pi 6e-6 (d/10000)^2 sqrt(N) times the sum of the amplitudes (times nodal factors), d being the greatest distance of a sample from the reference time. Likewise nodal='linear_time' against nodal=True: by at most d sqrt(N) times the sum of amplitudes times the rate at which the satellites can change the correction; for M2 5e-5 per day, S2 3e-6, N2 6e-5, K2 3.7e-4, K1 1.7e-4, O1 2.5e-4, P1 2.3e-5, Q1 6.2e-4, at every latitude.",
  "all records, times, latitudes, constituents other than M7; all pairs of runs that differ only in these options",
  "All dates, constituents and data; a test compares the two options on one record.",
  f"{H}: linearized_freqs", f"{H}: FUV", f"{A}: ut_astron", f"{S}: _solv1")
p("a record played backwards",
  "Mirror the times of a record about its reference time (t -> 2 reftime - t), in any order, and analyse it with the same options: method='ols', no inference, phases and nodal corrections raw or 'linear_time', samples that separate the constituents, the same constituents and reference time reported. Every constituent keeps its major axis (amplitude), its minor axis changes sign (currents rotate the other way), its orientation is kept, and its phase becomes 2 s - g modulo 360 where s is the angle of the constituent's harmonic at the reference time (0 for phase='raw' without nodal corrections: the phase changes sign); the mean stays, the trend changes sign, and reconstruct of the second result at a time gives what reconstruct of the first gives at the mirrored time.",
  "all records, one- and two-dimensional, all options of these kinds",
  "All records and constituents; a test mirrors one record.",
  f"{S}: _solv1", f"{H}: ut_E", f"{EP}: ut_cs2cep", f"{R}: _reconstruct")
p("more samples, more constituents and the width of the intervals",
  "For a scalar series analysed with method='ols', no inference, conf_int='linear' and white=True write w = A_ci^2 + (pi/180 A g_ci)^2 for the squared half-widths of a constituent of non-zero amplitude, and s2 for the residual variance per degree of freedom. Adding samples (any rows, anywhere, in any order; same constituents, reference time and options) never makes w/s2 larger. Analysing the same samples with further constituents, or with a trend, never makes w/s2 of the constituents already there smaller.",
  "all scalar records, all added rows, all sets of constituents containing the first",
  "All records, extensions and constituent sets; a test compares two analyses of one record.",
  f"{S}: _solv1", f"{CF}: _confidence", f"{CF}: ut_linci")
p("predictions analysed again give back the analysis",
  "Take any result of solve (any method, with or without inference) and predict from all its constituents at any other times (or the same). Analysing these predictions with method='ols', the same nodal and phase options, latitude and dimension, a list of constituents that contains those of the first result (inferred ones included; no inference in the second analysis) and a trend if the first had one returns, wherever the new times separate the constituents, the same ellipses, mean level and trend line, zero for every additional constituent, and the same predictions at all times; for nodal and phase corrections computed exactly the reference times may differ.",
  "all results, all times of prediction that separate the constituents, scalar and vector",
  "All results and all times; a test makes one round trip.",
  f"{S}: _solv1", f"{R}: reconstruct", f"{R}: _reconstruct", f"{H}: ut_E")
p("intervals of a robust analysis are those of weighted least squares",
  "For a scalar series, any method, conf_int='linear' and no inference the variances behind the intervals are those of the best linear unbiased estimators for observations whose noise variance is inversely proportional to the returned weights; observations of weight zero are left out. White noise: the factor is sum(weight * observation * (observation - prediction)) over the excess of observations (of any weight) over parameters; amplitude and phase intervals are 1.96 times the propagated standard errors; since the weights returned need not belong to the coefficients returned this factor can be negative, and then the amplitude and phase intervals are NaN. Coloured noise: the variances of the two components add up to the band power of the weighted residuals weight * (observation - prediction) and stand in the ratio of those of the two estimators.",
  "all scalar records, weights and numbers of constituents",
  "All records and all weights a robust fit can return.",
  f"{CF}: _confidence", f"{CF}: band_psd", f"{S}: _solv1")
p("which analyses can have confidence intervals, any method",
  "Without inference, an analysis that returned (ordinary or robust, scalar or vector) also returns with linearised or Monte Carlo intervals and a white noise floor if the observations of non-zero weight determine the model and the number of observations differs from that of the parameters; and every analysis that returns with intervals satisfies both.",
  "all records, constituents, methods and weight functions",
  "All records: which observations a robust fit rejects altogether depends on the data.",
  f"{CF}: _confidence", f"{S}: _solv1", f"{RF}: robustfit")
p("what an automatic selection separates",
  "With constit='auto' and no inference any two constituents of the result differ in published frequency (and up to 2e-9 cycles per hour in reported frequency) by at least Rayleigh_min over the record length, except K1 and M2 on records of 0.997 to 1.076 days times Rayleigh_min; the principal constituents appear from stated record lengths on (M2 0.52 days, K1 1.0, O1 13.7, S2 14.8, N2 27.6, K2 182.6, ...); and apart from seven constituents each is there together with its comparison constituent.",
  "all records, values of Rayleigh_min, sorting orders",
  "The selection compares each constituent with one other only; that no other pair comes too close, for any record length, is a fact about the whole table.",
  f"{CS}: ut_cnstitsel", f"{S}: _solv1")
p("building a Bunch",
  "Bunch(*args, **kwargs) has exactly the keys given, each once and in the order of their first mention, and for each the value given last: that of the keyword argument if there is one, else that of the last argument that has the key; Bunch(b) and Bunch(**b) equal b.",
  "all sequences of dictionaries or of key-value pairs and all keyword arguments",
  "All dictionaries.",
  f"{U}: Bunch.__init__")
p("where the noise of a record goes",
  "With method='ols', for any tide of the constituents analysed taken as the true one: the sum of squares of what the record has beyond it (noise, unmodelled tides) equals that of the residual plus that of the difference between reconstruction and true tide; so the fitted tide is never further from the true one than the data are. For a constituent that averages out over the samples against the rest of the model no noise whatever can put its amplitude wrong by more than sqrt(2) times the noise's root mean square.",
  "all records, elevations and currents, with gaps and inference, all supposed tides and all noise",
  "All noise and all supposed tides.",
  f"{S}: _solv1", f"{R}: reconstruct")
p("reading variables from a Python file",
  "b.from_pyfile(f) sets exactly the variables that the file, run as the body of a function, assigns: the others keep their values, new keys follow the old ones; the program run is the text of the file with four blanks put in front of every line (also of lines inside string literals) and nothing else changed; exceptions in opening or running are passed on and leave the Bunch as it was.",
  "all file contents, Bunches and outcomes of running the program",
  "All file contents.",
  f"{U}: Bunch.from_pyfile")
p("gaps in the residual",
  "For an evenly sampled record in increasing order some of whose samples are missing, coloured intervals use the spectrum of the residual drawn through the gaps: at usable samples it is the (weighted) residual itself, inside a gap it lies on the straight line between the two neighbouring residuals, before the first and after the last usable sample it is constant; so it nowhere exceeds the largest residual, and for a complete record it is the residual. complex_interp does this to any complex values at increasing times.",
  "all runs with linearised coloured intervals of scalar series without inference, any method, evenly sampled increasing times with any missing samples; all inputs of complex_interp with increasing sample times",
  "All gap patterns and residuals.",
  f"{CF}: band_averaged_psd_by_constit", f"{U}: complex_interp")
p("ways of calling ut_cs2cep",
  "ut_cs2cep gives for every row the parameters of the oscillation with these coefficients: Xu cos + Yu sin = A cos(phase - g) with A >= 0 and g in [0, 360); for currents the hodograph is the ellipse with axes Lsmaj, Lsmin turned by theta in [0, 180) and passed from the end of the major axis at phase g. Two arrays and one array with two columns give the same, four arrays and one array with four columns give the same. Any other number of columns, or a single array with one axis, is refused (ValueError, or IndexError for 2 or 4 elements), Xv without Yv is a TypeError.",
  "all coefficient arrays of equal lengths, all phases",
  "All coefficients and phases, all shapes.",
  f"{EP}: ut_cs2cep")
p("white noise intervals of a current, any method",
  "For currents, any method, conf_int='linear', white=True and no inference each component has its own noise variance, sum(weight * observation * (observation - prediction)) over the excess of observations over parameters; with the best linear unbiased estimators for noise variances inversely proportional to the returned weights this gives the standard errors of the four ellipse coefficients, independent of how the other component is scattered. The intervals of major axis and phase are 1.96 times the propagated standard errors, unless the ellipse is a circle; those of minor axis and orientation too, unless the cosine coefficient of v is exactly zero. If the variance of either component comes out negative (robust weights only), the intervals of major axis and phase of both come out NaN.",
  "all current records, options with linearised intervals, white noise floor and no inference, ols and robust",
  "Statistical claim about all records and all weights a robust fit may return.",
  f"{S}: _solv1", f"{CF}: _confidence", f"{CF}: ut_linci")
p("Confidence intervals of a current do not depend on the direction of the axes",
  "For a current analysed with `white=True`, `conf_int='linear'`, `method='ols'` and without inference, analysing the same current in axes turned by any angle gives the same confidence interval of the major axis of each constituent.",
  "for all records of two components, all angles, all options of such runs, both runs returning",
  "The test-suite analyses each record in one pair of axes only; whether the interval survives a rotation depends on the correlation between the residuals of the two components, which varies over a continuum of records.",
  f"{S}: _solv1", f"{CF}: _confidence", f"{CF}: ut_linci")
p("A robust fit does not depend on the order of the observations or of the curves",
  "For tolerances that truncate no singular value, `robustfit` given the observations in another order returns the same coefficients, the same number of iterations and the same residual sizes, with the weights and leverages moved along with the observations, or raises the same error; given other combinations of the same curves (an invertible mixing of the columns) it returns the same weights, leverages, iterations and fitted values. Hence two robust analyses of a record for the same constituents, however they are listed or ordered in the output, give the same ellipses, mean, trend, weights and predictions.",
  "for all weight functions, design matrices, data, permutations, invertible combinations of columns, and all records and options of robust runs",
  "Iteratively reweighted fits stop by comparing successive residuals and discard the last step when it is worse; the tests run one ordering of one record, and cannot show that the branch taken is the same for every ordering and every representation.",
  f"{RF}: robustfit", f"{RF}: leverage", f"{S}: _solv1")
p("A robust analysis does not depend on the order of the samples",
  "Two robust analyses with the same options of the same rows (time, u, v) in different orders, for the same constituents, which the sample times separate: if phases are Greenwich and nodal corrections exact or absent, or if the two results have the same reference time, then every ellipse, and mean and trend as a function of time, are the same, each sample carries the same weight, and the number of iterations and the residual sizes agree.",
  "for all records, rearrangements, weight functions, options and separating sample times, both runs returning",
  "The tests analyse time-ordered records; the robust fit iterates over medians, leverages and weights, and only a proof covers every rearrangement, including ties between residuals.",
  f"{S}: _solv1", f"{RF}: robustfit")
p("Oversampling refines the Lomb-Scargle frequency grid",
  "With the documented oversampling factor ofac, the frequencies P.F returned by _psd_lomb without given frequencies (and the grid of _lomb_freqs before it is cut into bands) are the whole multiples of 1/(ofac times record length) below the Nyquist frequency.",
  "for every time axis whose last time is later than its first, every factor",
  "The tests of the Lomb-Scargle code are commented out and use ofac=1; a finer grid for all records and factors is not something samples can show.",
  f"{PG}: _lomb_freqs", f"{PG}: _psd_lomb", f"{PG}: band_psd")
p("Band averages over any bands, with or without constituents",
  "fbndavg(P, freq, cfreq, fbands) gives for each band of fbands (the nine noise bands when None) the mean of P over the positions the band reaches, without the position nearest to each constituent when cfreq is given; bands do not influence one another; order and repetition of the constituents do not matter; an empty list of constituents is the same as none; averages of non-negative spectra are non-negative.",
  "for every ordered frequency grid, periodogram, list of bands and constituents",
  "The function's optional arguments are not exercised by the tests at all.",
  f"{PG}: fbndavg")
p("Only the shape of the data window matters",
  "Multiplying the data window by a number other than zero changes none of the spectra of _psd and _psd_lomb; leaving out the window of _psd_lomb is the same as any constant window; leaving out the frequencies is the same as giving those of the grid, and given frequencies are returned unchanged whatever the oversampling factor.",
  "for all series (real and complex), windows, frequencies, sampling times and factors",
  "The normalisation by the window's power is a formula that must hold for every window; the tests use the Hann window only and never call without a window.",
  f"{PG}: _psd", f"{PG}: _psd_lomb")
p("Options that do not apply have no effect",
  "Two calls of solve with acceptable options that agree except for verbose, MC_n, robust_kw (method 'ols'), Rayleigh_min (constituents listed) and white (conf_int='none') have the same outcome: the same error, or the same result in every field but the recorded options. With nodal=False two calls that differ in the latitude have the same outcome but for the recorded latitude.",
  "for all records, options, inference settings and methods",
  "The independence is from every value of the option, on every record, including those where the call fails.",
  f"{S}: solve", f"{S}: _translate_opts", f"{S}: _solv1", f"{CS}: ut_cnstitsel")
p("A prediction uses only the tide, the mean and the trend",
  "The outcome of reconstruct (series or error) is determined by the names, catalogue entries, ellipse parameters, mean, slope, dimension, trend and correction options of coef; by the latitude only if there are nodal corrections; by the stored frequencies only for raw phases without nodal corrections; by the reference time only with raw phases, linearised corrections or a trend; by min_SNR, min_PE, the intervals and the diagnostics option only if no constituents are listed and a threshold is set. Weights, stored PE and SNR, the diagnostics table and verbose have no effect. Hence with nodal=False solutions computed for different latitudes predict the same, and so do solutions computed with different values of options that do not apply.",
  "for all solutions, times, requests and records",
  "The claim is that two outcomes are equal for every value of the parts that are not needed; a test changes one part of one solution.",
  f"{R}: reconstruct", f"{R}: _reconstruct", f"{H}: ut_E", f"{H}: FUV")
p("The same record at another date",
  "If all times of a record are moved by s days and nothing else is changed, then in the results the reference time moves by exactly s and the same constituents are selected, inferred ones included. With nodal=False and phase='raw' the harmonic of every constituent, as a function of the time elapsed, is the same to within 3.1e-7 per day from the reference time, as long as both reference times are within 400 years of the end of 1899: the frequencies are those of the date, and change by at most 2e-9 cycles per hour. Accordingly, with method='ols', the root sums of squared residuals of the two analyses differ by at most 3.1e-7 d B √N, for N samples within d days of the reference time and amplitudes that add up to at most B. A raw solution whose reference time is moved by s days predicts for times moved by s days exactly what it predicted before.",
  "for all records, shifts, options and constituents",
  "The bound is uniform in the record, the shift and the constituent, over eight centuries of dates.",
  f"{S}: _slvinit", f"{CS}: ut_cnstitsel", f"{H}: linearized_freqs", f"{H}: ut_E")
p("A current along a line is analysed as an elevation along it",
  "For the current u = h cos φ, v = h sin φ (missing where h is), analysed with method='ols', conf_int='none' and no inference, not ordered by SNR: the names, their order, the frequencies and the percent energies are those of the analysis of h alone. Lsmaj is the amplitude A and Lsmin is 0; where A > 0, theta is φ and g is the phase of the elevation, up to half turns that theta and g make together. The mean and the slope are those of h along the same direction.",
  "for all times, elevations with any missing samples, directions, and options of this kind",
  "Relates two different code paths (one and two dimensions) for every series and every direction; tests compare a few numbers.",
  f"{S}: _solv1", f"{EP}: ut_cs2cep")
p("The tide averages out",
  "Predictions at m regular times, from a solution whose harmonics have constant amplitude (nodal and phase off or 'linear_time'): the mean of the prediction differs from that of mean and trend by at most the sum, over the constituents used, of amplitude (major semi-axis) times nodal factor, divided by m |sin(pi n)| with n the number of cycles from one time to the next. For hourly predictions without nodal corrections and Z0 (reference time in the first ten thousand years): by at most the sum of amplitude times half the period in hours, divided by m; so it tends to zero.",
  "for all solutions (any method, confidence setting, inference), selections of constituents, starting times, steps and lengths",
  "The bound is for every length of prediction at once, and the limit is beyond any test.",
  f"{R}: _reconstr1", f"{H}: ut_E")
p("A constituent through its period",
  "A constituent of positive frequency f (cycles per hour) predicted by itself (constit=[name], no name twice), with harmonics of constant amplitude and nodal=False: what it adds to mean and trend repeats after 1/f hours. In every period there is a time at which it is the major semi-axis (the amplitude) in the direction theta; a quarter of a period later it is the minor semi-axis, with its sign, at 90 degrees to theta (zero for an elevation at mid-tide); after a half and three quarters of a period it is the opposite of these.",
  "for all solutions (any method, confidence setting, inference), constituents, and starting times",
  "States what the predicted curve does at times which depend on the solution and are on no grid.",
  f"{R}: _reconstr1", f"{H}: ut_E", f"{EP}: ut_cs2cep")
p("What a tide outside the model leaks into a constituent",
  "A record that is nothing but a steady tide of a frequency not in the model, sampled at m regular times and analysed by ordinary least squares without inference (nodal and phase off or 'linear_time'): in a constituent whose harmonic averages out against the rest of the model, the amplitude (major semi-axis) found, times its nodal factor, is at most the amplitude of that tide, divided by m, times 1/|sin pi(y-x)| + 1/|sin pi(y+x)|, where x and y are the cycles of the constituent and of the foreign tide from one sample to the next.",
  "for all frequencies, amplitudes and phases of the foreign tide, elevations and currents, and record lengths",
  "A bound for every frequency of the foreign tide and every length of record; a test tries a few pairs.",
  f"{S}: _solv1", f"{EP}: ut_cs2cep", f"{H}: ut_E")
p("Springs and neaps",
  "Two constituents of different frequencies f > 0 and f' (cycles per hour) and amplitudes A and A' of an elevation, predicted together (constit=[n, n'], no name twice), with harmonics of constant amplitude and nodal=False: in every beat period of 1/|f - f'| hours there is a time of springs s such that at every time T the height besides mean and trend has a square of at most A^2 + A'^2 + 2AA' cos 2pi(f - f')(T - s), and at some time T within 1/f hours after springs the height is A + A' cos 2pi(f - f')(T - s). At neaps, half a beat after springs, the height is at most |A - A'| in magnitude.",
  "for all solutions for elevations (any method, confidence setting, inference), pairs of constituents, and starting times",
  "The times of springs and neaps depend on the solution and are on no grid; the bound is for all times.",
  f"{R}: _reconstr1", f"{H}: ut_E", f"{EP}: ut_cs2cep")
p("Mean and trend where the tide averages out over the samples",
  "Ordinary least squares with or without inference, elevations and currents: if over the usable samples the harmonics of all constituents in the model add up to zero (and, with a trend, their products with time too), then the returned mean and slope are those of the ordinary regression line of the raw data: what is left of the data after mean and trend adds up to zero, also when multiplied by time, and no straight line is nearer to the data. With trend=False the mean is the average of the data.",
  "for all records, sampling times and constituents with that property",
  "Holds for every record whatever its values; a test compares two numbers for one record.",
  f"{S}: _solv1", f"{H}: ut_E")
if __name__ == "__main__":
    with open("/verif/properties.jsonl","w") as f:
        for q in P: f.write(json.dumps(q)+"\n")
    print(len(P))
