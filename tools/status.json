{
 "C14": {
  "status": "partial",
  "note": "False as stated: C14_false (a plain dict is always refused) and C14_missing_key (missing keys give TypeError, not ValueError). C14_validation_partial is the part that holds for a Bunch."
 },
 "C19": {
  "status": "proved",
  "note": "Option processing precedes everything else in solve. The reserved names strict/self give TypeError."
 },
 "C20": {
  "status": "proved",
  "note": "Mode selection from the options, and its effect on fit and reconstruction."
 },
 "C21": {
  "status": "proved",
  "note": ""
 },
 "C22": {
  "status": "proved",
  "note": ""
 },
 "C64": {
  "status": "proved",
  "note": ""
 },
 "C65": {
  "status": "proved",
  "note": ""
 },
 "C66": {
  "status": "proved",
  "note": "Names of class members are excluded; C66_shadowed_names states what happens there."
 },
 "C25": {
  "status": "proved",
  "note": ""
 },
 "C26": {
  "status": "proved",
  "note": ""
 },
 "C28": {
  "status": "proved",
  "note": ""
 },
 "C27": {
  "status": "partial",
  "note": "False as stated: C27_false (numeric times without an epoch are read as datetime64[ms], i.e. milliseconds since 1970). C27_without_epoch states what the code does; C27_python_epoch_partial covers epoch='python' given explicitly."
 },
 "C38": {
  "status": "proved",
  "note": ""
 },
 "C39": {
  "status": "proved",
  "note": ""
 },
 "C41": {
  "status": "proved",
  "note": ""
 },
 "C42": {
  "status": "proved",
  "note": ""
 },
 "C44": {
  "status": "proved",
  "note": ""
 },
 "C67": {
  "status": "proved",
  "note": ""
 },
 "C12": {
  "status": "proved",
  "note": ""
 },
 "C40": {
  "status": "partial",
  "note": "False as stated: C40_false (M7 is 3.5 times the reduced M2 argument, its basis function jumps). C40_continuous_partial and C40_shift_partial: every other constituent, in every nodal mode."
 },
 "C43": {
  "status": "partial",
  "note": "False at latitude exactly 0: C43_false. C43_defined_partial for all other latitudes; C43_near_equator, C43_irrelevant, C43_elsewhere are complete."
 },
 "C15": {
  "status": "proved",
  "note": ""
 },
 "C16": {
  "status": "proved",
  "note": ""
 },
 "C17": {
  "status": "proved",
  "note": ""
 },
 "C18": {
  "status": "proved",
  "note": ""
 },
 "C09": {
  "status": "proved",
  "note": ""
 },
 "C10": {
  "status": "proved",
  "note": ""
 },
 "C24": {
  "status": "proved",
  "note": ""
 },
 "C29": {
  "status": "proved",
  "note": ""
 },
 "C68": {
  "status": "proved",
  "note": ""
 },
 "C30": {
  "status": "partial",
  "note": "False as stated: C30_false (the mask of t is dropped by np.asarray; C30_mask_ignored). C30_partial covers masked times that are also NaN."
 },
 "C32": {
  "status": "proved",
  "note": ""
 },
 "C33": {
  "status": "proved",
  "note": "Sequences of names are lists or tuples of strings."
 },
 "C37": {
  "status": "proved",
  "note": "Row equality for solutions keeping all constituents (see C34 for explicit orders that drop some)."
 },
 "C34": {
  "status": "partial",
  "note": "False as stated: C34_false (an explicit order naming only M2 drops S2), C34_duplicates. C34_partial: a sequence without repetitions naming all fitted constituents loses nothing."
 },
 "C23": {
  "status": "proved",
  "note": ""
 },
 "C31": {
  "status": "proved",
  "note": ""
 },
 "C35": {
  "status": "proved",
  "note": ""
 },
 "C36": {
  "status": "proved",
  "note": "For solutions that keep all fitted constituents; for an explicit order that drops some, reconstruct recomputes PE from the remaining ones."
 },
 "C01": {
  "status": "proved",
  "note": "Least squares by the lstsq contract (minimum-norm minimiser); the misfit counts usable samples."
 },
 "C02": {
  "status": "proved",
  "note": "As C01, for u + iv."
 },
 "C03": {
  "status": "proved",
  "note": "Scalar and vector; no independence of columns is assumed."
 },
 "C04": {
  "status": "proved",
  "note": ""
 },
 "C05": {
  "status": "proved",
  "note": "C05_scale and C05_negate for orders other than SNR (positions and PE too), C05_byname for every order, constituent by constituent."
 },
 "C06": {
  "status": "proved",
  "note": ""
 },
 "C07": {
  "status": "proved",
  "note": "C07_zero_component for orders other than SNR, C07_byname for every order, C07_robust for robust fits. Independence of the model columns is not needed."
 },
 "C08": {
  "status": "proved",
  "note": "C08_rotation for orders other than SNR, C08_byname for every order; circles included through theta-g and theta+g."
 },
 "C11": {
  "status": "proved",
  "note": ""
 },
 "C45": {
  "status": "proved",
  "note": ""
 },
 "C47": {
  "status": "proved",
  "note": ""
 },
 "C49": {
  "status": "proved",
  "note": ""
 },
 "C46": {
  "status": "partial",
  "note": "False of the code: andrews, huber and logistic apply Python's max to an array, which raises ValueError for two or more residuals (C46_false). Proved: the other six accept every array, unknown names are refused, and solve never returns with one of the three."
 },
 "C48": {
  "status": "partial",
  "note": "False of the code: when maxit is exhausted the returned weights are one pass newer than the returned coefficients (C48_false). Proved: the coefficients are optimal for the returned weights unless the iteration was exhausted, and what rms_resid is the rms of."
 },
 "C69": {
  "status": "partial",
  "note": "False of the code: rows are multiplied by w, so the equations hold with w squared instead of w (C69_false, C69_partial)."
 },
 "C55": {
  "status": "proved",
  "note": "The model of cluster (confidence.py 51-60) over the reals; empty array is the IndexError of x[0]."
 },
 "C56": {
  "status": "partial",
  "note": "False as stated: C56_false (the orientation, defined modulo 180 degrees, is clustered with 360, so the same cloud of ellipses gets another theta_ci when the axes are turned). Proved in C56_partial: the spread is invariant modulo 360 degrees, and modulo 180 as long as no orientation passes the cut."
 },
 "C53": {
  "status": "proved",
  "note": ""
 },
 "C54": {
  "status": "proved",
  "note": ""
 },
 "C50": {
  "status": "partial",
  "note": "False for a vector series whose cosine coefficient of v is exactly zero (C50_false): ut_linci then treats the pair as real and reports zero minor-axis and inclination intervals. Proved for scalar series and for every other non-circular ellipse."
 },
 "C57": {
  "status": "proved",
  "note": "Closest in Frobenius norm under the SVD contract; the loop bound and symmetry hold for any outcome of the test."
 },
 "C58": {
  "status": "proved",
  "note": "fbndavg on arbitrary grids; nearest-frequency exclusion follows the rounding of the interpolated index."
 },
 "C59": {
  "status": "partial",
  "note": "False: one frequency at or above the upper edge is averaged in (C59_false); the set really averaged over is in C59_partial."
 },
 "C60": {
  "status": "proved",
  "note": "FFT as the discrete Fourier sum in exact arithmetic; even length."
 },
 "C61": {
  "status": "proved",
  "note": "FFT branch and, under the lomb contract, the Lomb branch."
 },
 "C62": {
  "status": "proved",
  "note": "The nine bands are read off the table in the code; power of a constituent is that of its band."
 },
 "C63": {
  "status": "proved",
  "note": "Every branch of the band-by-band frequency grid."
 },
 "C70": {
  "status": "partial",
  "note": "Scalar series: C70_scalar, complete. Vector series: C70_vector_partial gives major axis and phase in general, minor axis and orientation only when the cosine coefficient of v is not exactly zero, where the code is wrong (C50_false). Under the contract of np.linalg.inv."
 },
 "C71": {
  "status": "proved",
  "note": "C71_same_fit for any two choices, C71_added when one of the runs has no intervals (then every order is covered)."
 },
 "C72": {
  "status": "proved",
  "note": "C72_available and C72_needed, under the contracts of np.linalg.inv and multivariate_normal."
 },
 "C51": {
  "status": "proved",
  "note": "Scalar run, no inference. Hypothesis: the band power at the constituent is a finite non-negative number and the residual is not identically zero (otherwise the code divides 0 by 0)."
 },
 "C52": {
  "status": "partial",
  "note": "Proved for white noise without inference (major axis and phase intervals always; minor axis and inclination when neither component's cosine coefficient is exactly zero). False in general: C52_false (coloured noise: only the second component's variances are rescaled) and C52_false_white (exactly zero cosine coefficient)."
 },
 "C13": {
  "status": "partial",
  "note": "False for this code (C13_false): the correction factors of the approximate method are computed and never used. Proved instead: mean, trend and all constituents that are not inferred are the same for all ratios and phase offsets."
 },
 "C73": {
  "status": "proved",
  "note": ""
 },
 "C74": {
  "status": "proved",
  "note": ""
 },
 "C75": {
  "status": "proved",
  "note": ""
 },
 "C76": {
  "status": "proved",
  "note": ""
 },
 "C77": {
  "status": "proved",
  "note": ""
 },
 "C78": {
  "status": "proved",
  "note": ""
 },
 "C79": {
  "status": "partial",
  "note": "False as stated (C79_false): with raw phases or linearised times the reference time, the middle of first and last sample in the given order, enters the phases. Proved for Greenwich phases with nodal exact or off, and for any options when the two reference times agree."
 },
 "C80": {
  "status": "proved",
  "note": ""
 },
 "C81": {
  "status": "proved",
  "note": ""
 },
 "C82": {
  "status": "proved",
  "note": ""
 },
 "C83": {
  "status": "proved",
  "note": ""
 },
 "C84": {
  "status": "proved",
  "note": ""
 },
 "C85": {
  "status": "proved",
  "note": ""
 },
 "C86": {
  "status": "proved",
  "note": ""
 },
 "C87": {
  "status": "proved",
  "note": ""
 },
 "C88": {
  "status": "proved",
  "note": ""
 },
 "C89": {
  "status": "partial",
  "note": "False as documented (C89_false): strings inside object arrays keep trailing white space, and a 1-D array of one string becomes an array. What is done is proved value by value."
 },
 "C90": {
  "status": "partial",
  "note": "C90_false: the claim fails, for an offset of 0 the interval is r/sqrt(2) times that of the reference. C90_offset_partial gives both intervals for every ratio and phase offset in terms of amplitude and intervals of the reference; C90_reduced_partial the case of multiples of 180 degrees. Currents are not covered."
 },
 "C91": {
  "status": "partial",
  "note": "C91_false: with both reference and other constituents the variances are read from the wrong columns of the covariance. C91_noinference_partial: the claim holds when nothing is inferred."
 },
 "C92": {
  "status": "proved",
  "note": ""
 },
 "C93": {
  "status": "proved",
  "note": ""
 },
 "C94": {
  "status": "proved",
  "note": ""
 },
 "C95": {
  "status": "proved",
  "note": ""
 },
 "C96": {
  "status": "proved",
  "note": ""
 },
 "C97": {
  "status": "proved",
  "note": ""
 },
 "C98": {
  "status": "proved",
  "note": ""
 },
 "C99": {
  "status": "proved",
  "note": ""
 },
 "C100": {
  "status": "proved",
  "note": ""
 },
 "C101": {
  "status": "proved",
  "note": ""
 },
 "C102": {
  "status": "proved",
  "note": ""
 },
 "C103": {
  "status": "proved",
  "note": ""
 },
 "C104": {
  "status": "proved",
  "note": ""
 },
 "C105": {
  "status": "partial",
  "note": "False of the code: solve reads the attribute shape of its arguments, so lists and tuples are an AttributeError (C105_false). C105_partial says which calls work and which error the others raise; reconstruct takes lists."
 },
 "C106": {
  "status": "proved",
  "note": ""
 },
 "C107": {
  "status": "proved",
  "note": ""
 },
 "C108": {
  "status": "proved",
  "note": ""
 },
 "C109": {
  "status": "proved",
  "note": ""
 },
 "C110": {
  "status": "proved",
  "note": ""
 },
 "C111": {
  "status": "partial",
  "note": "False of the code in general (C111_false): the spread of complex residuals is measured around np.median, which orders complex numbers by their real part. Proved for half turns, for the weight function ols, and for rectilinear currents."
 },
 "C112": {
  "status": "partial",
  "note": "False of the code for coloured noise (C112_false; the NaN there is an exact-arithmetic effect, in floating point rounding noise replaces the zero variances and those of u remain unscaled, which is not proved). Proved for white noise."
 },
 "C113": {
  "status": "proved",
  "note": "White noise, ordinary least squares, no inference; same constituents and reference time in both runs."
 },
 "C114": {
  "status": "partial",
  "note": "False of the code: a record of zeros makes sigma_hat zero and the next lstsq fails (C114_zeros, C114_false). Proved for the weight functions without zero weights (cauchy, fair, welsch) when no curve passes through more than half of the samples; not proved for bisquare and talwar, whose zero weights can remove samples."
 },
 "C115": {
  "status": "proved",
  "note": ""
 },
 "C116": {
  "status": "partial",
  "note": "false in two exactly described situations (C116_alone: IndexError; C116_repeated: ValueError); all other sound calls, with a list of constituents or an automatic selection, are shown to return, except exact inference from NO1, OO1, UPS1 with nodal corrections, which is not covered (their nodal factor may vanish)"
 },
 "C117": {
  "status": "proved",
  "note": "reference times within [0, 4000000] days; separation and recovery for corrections off or at the reference time (the exact corrections are not periodic); with nodal corrections records below 650*Rayleigh_min hours, where NO1, OO1, UPS1 are not selected"
 },
 "C118": {
  "status": "proved",
  "note": ""
 },
 "C119": {
  "status": "proved",
  "note": ""
 },
 "C120": {
  "status": "proved",
  "note": ""
 },
 "C121": {
  "status": "proved",
  "note": ""
 },
 "C122": {
  "status": "proved",
  "note": ""
 },
 "C123": {
  "status": "partial",
  "note": "Full statement false: solve returns zeros for an evenly spaced record of missing values when conf_int='none'."
 },
 "C124": {
  "status": "proved",
  "note": ""
 },
 "C125": {
  "status": "proved",
  "note": ""
 },
 "C126": {
  "status": "proved",
  "note": ""
 },
 "C127": {
  "status": "proved",
  "note": ""
 },
 "C128": {
  "status": "proved",
  "note": ""
 },
 "C129": {
  "status": "partial",
  "note": "false for coloured noise (C129_false): descending times give NaN intervals (C129_descending) or an error (C129_uneven); proved for white noise"
 },
 "C130": {
  "status": "proved",
  "note": "reference times outside years 0 to 10950 not covered"
 },
 "C131": {
  "status": "proved",
  "note": "method='ols' without inference"
 },
 "C132": {
  "status": "proved",
  "note": "method='ols' without inference"
 },
 "C133": {
  "status": "proved",
  "note": "method='ols' without inference for the fits; M7 excluded (C40)"
 },
 "C134": {
  "status": "proved",
  "note": "phase='Greenwich' and nodal=True excluded: their harmonics have no such symmetry"
 },
 "C135": {
  "status": "proved",
  "note": "scalar series and white noise only; the ratio to the noise variance, since the variance estimate itself can move either way"
 },
 "C136": {
  "status": "proved",
  "note": "for corrections evaluated at the reference time ('linear_time', raw) the two reference times have to agree"
 },
 "C137": {
  "status": "proved",
  "note": "scalar series; vector series of ordinary least squares are C70, C101"
 },
 "C138": {
  "status": "proved",
  "note": ""
 },
 "C139": {
  "status": "proved",
  "note": ""
 },
 "C140": {
  "status": "proved",
  "note": ""
 },
 "C141": {
  "status": "proved",
  "note": ""
 },
 "C142": {
  "status": "proved",
  "note": ""
 },
 "C143": {
  "status": "proved",
  "note": ""
 },
 "C144": {
  "status": "proved",
  "note": ""
 },
 "C145": {
  "status": "proved",
  "note": ""
 },
 "C146": {
  "status": "partial",
  "note": "C146_false: the correlation of the residuals of the two components is ignored, so the intervals depend on the axes (factor \u221a2 for a current along a line). C146_isotropic_partial: holds for every angle when the residuals of the components have equal sums of squares and zero correlation."
 },
 "C147": {
  "status": "proved",
  "note": "C147_order: permuted observations. C147_basis: any invertible combination of the columns. C147_constituents: two robust runs of solve for the same constituents."
 },
 "C148": {
  "status": "proved",
  "note": "C148_order: Greenwich phases. C148_same_reftime: any options, same reference time. As C79_false shows for least squares, raw phases depend on which samples come first and last."
 },
 "C149": {
  "status": "partial",
  "note": "The full statement is false (C149_false); what the code does instead is C149_grid_partial, C149_no_effect and C149_noise."
 },
 "C150": {
  "status": "proved",
  "note": "A band reaches from its lower edge up to and including the first frequency not below its upper edge (see C59)."
 },
 "C151": {
  "status": "proved",
  "note": "scipy's lombscargle by its contract LombOk."
 },
 "C152": {
  "status": "proved",
  "note": "MC_n is not read by the code at all (200 samples are always drawn), so it is among the options without effect."
 },
 "C153": {
  "status": "proved",
  "note": "Equality includes the errors that stop a prediction."
 },
 "C154": {
  "status": "proved",
  "note": "Exact equality of raw phases is not claimed: the code linearises the astronomical arguments at the reference time, so the frequencies depend on the date."
 },
 "C155": {
  "status": "proved",
  "note": "Intervals are left out (conf_int='none'), as is the order by SNR which reads them."
 },
 "C156": {
  "status": "proved",
  "note": "With exact nodal corrections or phases the harmonics are no pure sinusoids and the bound is not claimed."
 },
 "C157": {
  "status": "proved",
  "note": "C157_nodal: with nodal='linear_time' the same holds with the semi-axes times the nodal factor."
 },
 "C158": {
  "status": "proved",
  "note": "For a record with other tides besides, the analysis is additive (C76)."
 },
 "C159": {
  "status": "proved",
  "note": "Elevations only; without nodal corrections."
 },
 "C160": {
  "status": "proved",
  "note": ""
 }
}
