{
 "claims": [
  {
   "property": "C01",
   "status": "proved",
   "theorems": [
    "UTide.Props.C01_best"
   ],
   "note": "Least squares by the lstsq contract (minimum-norm minimiser); the misfit counts usable samples."
  },
  {
   "property": "C02",
   "status": "proved",
   "theorems": [
    "UTide.Props.C02_best"
   ],
   "note": "As C01, for u + iv."
  },
  {
   "property": "C03",
   "status": "proved",
   "theorems": [
    "UTide.Props.C03_scalar",
    "UTide.Props.C03_vector"
   ],
   "note": "Scalar and vector; no independence of columns is assumed."
  },
  {
   "property": "C04",
   "status": "proved",
   "theorems": [
    "UTide.Props.C04_scalar",
    "UTide.Props.C04_vector"
   ],
   "note": ""
  },
  {
   "property": "C05",
   "status": "proved",
   "theorems": [
    "UTide.Props.C05_byname",
    "UTide.Props.C05_scale",
    "UTide.Props.C05_negate"
   ],
   "note": "C05_scale and C05_negate for orders other than SNR (positions and PE too), C05_byname for every order, constituent by constituent."
  },
  {
   "property": "C06",
   "status": "proved",
   "theorems": [
    "UTide.Props.C06_offset"
   ],
   "note": ""
  },
  {
   "property": "C07",
   "status": "proved",
   "theorems": [
    "UTide.Props.C07_zero_component",
    "UTide.Props.C07_byname",
    "UTide.Props.C07_robust"
   ],
   "note": "C07_zero_component for orders other than SNR, C07_byname for every order, C07_robust for robust fits. Independence of the model columns is not needed."
  },
  {
   "property": "C08",
   "status": "proved",
   "theorems": [
    "UTide.Props.C08_rotation",
    "UTide.Props.C08_byname"
   ],
   "note": "C08_rotation for orders other than SNR, C08_byname for every order; circles included through theta-g and theta+g."
  },
  {
   "property": "C09",
   "status": "proved",
   "theorems": [
    "UTide.C09_cs2cep_ranges",
    "UTide.Props.C09_ranges"
   ],
   "note": ""
  },
  {
   "property": "C10",
   "status": "proved",
   "theorems": [
    "UTide.C10_scalar",
    "UTide.C10_direction",
    "UTide.C10_max_speed",
    "UTide.C10_min_speed",
    "UTide.C10_rotation"
   ],
   "note": ""
  },
  {
   "property": "C11",
   "status": "proved",
   "theorems": [
    "UTide.Props.C11_scalar",
    "UTide.Props.C11_vector"
   ],
   "note": ""
  },
  {
   "property": "C12",
   "status": "proved",
   "theorems": [
    "UTide.Props.C12_layout",
    "UTide.Props.C12_total"
   ],
   "note": ""
  },
  {
   "property": "C13",
   "status": "partial",
   "theorems": [
    "UTide.Props.C13_independent_partial",
    "UTide.Props.C13_false"
   ],
   "note": "False for this code (C13_false): the correction factors of the approximate method are computed and never used. Proved instead: mean, trend and all constituents that are not inferred are the same for all ratios and phase offsets."
  },
  {
   "property": "C14",
   "status": "partial",
   "theorems": [
    "UTide.Props.C14_none",
    "UTide.Props.C14_plain_dict_refused",
    "UTide.Props.C14_false",
    "UTide.Props.C14_missing_key",
    "UTide.Props.C14_validation_partial",
    "UTide.Props.C14_refused_before_computation"
   ],
   "note": "False as stated: C14_false (a plain dict is always refused) and C14_missing_key (missing keys give TypeError, not ValueError). C14_validation_partial is the part that holds for a Bunch."
  },
  {
   "property": "C15",
   "status": "proved",
   "theorems": [
    "UTide.Props.C15_automatic",
    "UTide.Props.C15_separation",
    "UTide.Props.C15_selection",
    "UTide.Props.C15_total"
   ],
   "note": ""
  },
  {
   "property": "C16",
   "status": "proved",
   "theorems": [
    "UTide.Props.C16_monotone",
    "UTide.Props.C16_selection"
   ],
   "note": ""
  },
  {
   "property": "C17",
   "status": "proved",
   "theorems": [
    "UTide.Props.C17_honoured",
    "UTide.Props.C17_unknown",
    "UTide.Props.C17_selection"
   ],
   "note": ""
  },
  {
   "property": "C18",
   "status": "proved",
   "theorems": [
    "UTide.Props.C18_aligned",
    "UTide.Props.C18_selection"
   ],
   "note": ""
  },
  {
   "property": "C19",
   "status": "proved",
   "theorems": [
    "UTide.Props.C19_unknown_option",
    "UTide.Props.C19_values"
   ],
   "note": "Option processing precedes everything else in solve. The reserved names strict/self give TypeError."
  },
  {
   "property": "C20",
   "status": "proved",
   "theorems": [
    "UTide.Props.C20_modes",
    "UTide.Props.C20_harmonics",
    "UTide.Props.C20_reconstruct",
    "UTide.Props.C20_fit"
   ],
   "note": "Mode selection from the options, and its effect on fit and reconstruction."
  },
  {
   "property": "C21",
   "status": "proved",
   "theorems": [
    "UTide.Props.C21_conf_int",
    "UTide.Props.C21_order_constit"
   ],
   "note": ""
  },
  {
   "property": "C22",
   "status": "proved",
   "theorems": [
    "UTide.Props.C22_calls_independent"
   ],
   "note": ""
  },
  {
   "property": "C23",
   "status": "proved",
   "theorems": [
    "UTide.Props.C23_solve",
    "UTide.Props.C23_reconstruct"
   ],
   "note": ""
  },
  {
   "property": "C24",
   "status": "proved",
   "theorems": [
    "UTide.Props.C24_rejected",
    "UTide.Props.C24_accepted"
   ],
   "note": ""
  },
  {
   "property": "C25",
   "status": "proved",
   "theorems": [
    "UTide.Props.C25_number",
    "UTide.Props.C25_epoch_relabels",
    "UTide.Props.C25_datetimes_agree",
    "UTide.Props.C25_integers",
    "UTide.Props.C25_pointwise"
   ],
   "note": ""
  },
  {
   "property": "C26",
   "status": "proved",
   "theorems": [
    "UTide.Props.C26_datetime_day_numbers"
   ],
   "note": ""
  },
  {
   "property": "C27",
   "status": "partial",
   "theorems": [
    "UTide.Props.C27_milliseconds",
    "UTide.Props.C27_integers",
    "UTide.Props.C27_without_epoch",
    "UTide.Props.C27_false",
    "UTide.Props.C27_python_epoch_partial"
   ],
   "note": "False as stated: C27_false (numeric times without an epoch are read as datetime64[ms], i.e. milliseconds since 1970). C27_without_epoch states what the code does; C27_python_epoch_partial covers epoch='python' given explicitly."
  },
  {
   "property": "C28",
   "status": "proved",
   "theorems": [
    "UTide.Props.C28_unusable_times"
   ],
   "note": ""
  },
  {
   "property": "C29",
   "status": "proved",
   "theorems": [
    "UTide.Props.C29_only_usable_samples",
    "UTide.Props.C29_missing_times",
    "UTide.Props.C29_rows"
   ],
   "note": ""
  },
  {
   "property": "C30",
   "status": "partial",
   "theorems": [
    "UTide.Props.C30_mask_ignored",
    "UTide.Props.C30_false",
    "UTide.Props.C30_partial"
   ],
   "note": "False as stated: C30_false (the mask of t is dropped by np.asarray; C30_mask_ignored). C30_partial covers masked times that are also NaN."
  },
  {
   "property": "C31",
   "status": "proved",
   "theorems": [
    "UTide.Props.C31_shape",
    "UTide.Props.C31_concat"
   ],
   "note": ""
  },
  {
   "property": "C32",
   "status": "proved",
   "theorems": [
    "UTide.Props.C32_shares",
    "UTide.Props.C32_units",
    "UTide.Props.C32_solve"
   ],
   "note": ""
  },
  {
   "property": "C33",
   "status": "proved",
   "theorems": [
    "UTide.Props.C33_reorders",
    "UTide.Props.C33_sorted",
    "UTide.Props.C33_explicit"
   ],
   "note": "Sequences of names are lists or tuples of strings."
  },
  {
   "property": "C34",
   "status": "partial",
   "theorems": [
    "UTide.Props.C34_false",
    "UTide.Props.C34_duplicates",
    "UTide.Props.C34_partial"
   ],
   "note": "False as stated: C34_false (an explicit order naming only M2 drops S2), C34_duplicates. C34_partial: a sequence without repetitions naming all fitted constituents loses nothing."
  },
  {
   "property": "C35",
   "status": "proved",
   "theorems": [
    "UTide.Props.C35_permutation",
    "UTide.Props.C35_orders"
   ],
   "note": ""
  },
  {
   "property": "C36",
   "status": "proved",
   "theorems": [
    "UTide.Props.C36_selected",
    "UTide.Props.C36_monotone",
    "UTide.Props.C36_nothing",
    "UTide.Props.C36_thresholds"
   ],
   "note": "For solutions that keep all fitted constituents; for an explicit order that drops some, reconstruct recomputes PE from the remaining ones."
  },
  {
   "property": "C37",
   "status": "proved",
   "theorems": [
    "UTide.Props.C37_table"
   ],
   "note": "Row equality for solutions keeping all constituents (see C34 for explicit orders that drop some)."
  },
  {
   "property": "C38",
   "status": "proved",
   "theorems": [
    "UTide.Props.C38_rates_are_derivatives",
    "UTide.Props.C38_rate_unique"
   ],
   "note": ""
  },
  {
   "property": "C39",
   "status": "proved",
   "theorems": [
    "UTide.Props.C39_frequency",
    "UTide.Props.C39_argument",
    "UTide.Props.C39_nodal",
    "UTide.Props.C39_integer_weights",
    "UTide.Props.C39_phase_factor",
    "UTide.Props.C39_basis_function",
    "UTide.Props.C39_order_irrelevant",
    "UTide.Props.C39_placeholder_unused"
   ],
   "note": ""
  },
  {
   "property": "C40",
   "status": "partial",
   "theorems": [
    "UTide.Props.C40_continuous_partial",
    "UTide.Props.C40_shift_partial",
    "UTide.Props.C40_false"
   ],
   "note": "False as stated: C40_false (M7 is 3.5 times the reduced M2 argument, its basis function jumps). C40_continuous_partial and C40_shift_partial: every other constituent, in every nodal mode."
  },
  {
   "property": "C41",
   "status": "proved",
   "theorems": [
    "UTide.Props.C41_agree_at_reference",
    "UTide.Props.C41_first_order"
   ],
   "note": ""
  },
  {
   "property": "C42",
   "status": "proved",
   "theorems": [
    "UTide.Props.C42_raw_sinusoid"
   ],
   "note": ""
  },
  {
   "property": "C43",
   "status": "partial",
   "theorems": [
    "UTide.Props.C43_false",
    "UTide.Props.C43_defined_partial",
    "UTide.Props.C43_near_equator",
    "UTide.Props.C43_irrelevant",
    "UTide.Props.C43_elsewhere"
   ],
   "note": "False at latitude exactly 0: C43_false. C43_defined_partial for all other latitudes; C43_near_equator, C43_irrelevant, C43_elsewhere are complete."
  },
  {
   "property": "C44",
   "status": "proved",
   "theorems": [
    "UTide.Props.C44_raw_paths_agree"
   ],
   "note": ""
  },
  {
   "property": "C45",
   "status": "proved",
   "theorems": [
    "UTide.Props.C45_weights"
   ],
   "note": ""
  },
  {
   "property": "C46",
   "status": "partial",
   "theorems": [
    "UTide.Props.C46_solve",
    "UTide.Props.C46_false",
    "UTide.Props.C46_partial",
    "UTide.Props.C46_unusable"
   ],
   "note": "False of the code: andrews, huber and logistic apply Python's max to an array, which raises ValueError for two or more residuals (C46_false). Proved: the other six accept every array, unknown names are refused, and solve never returns with one of the three."
  },
  {
   "property": "C47",
   "status": "proved",
   "theorems": [
    "UTide.Props.C47_solve",
    "UTide.Props.C47_iteration"
   ],
   "note": ""
  },
  {
   "property": "C48",
   "status": "partial",
   "theorems": [
    "UTide.Props.C48_false",
    "UTide.Props.C48_partial"
   ],
   "note": "False of the code: when maxit is exhausted the returned weights are one pass newer than the returned coefficients (C48_false). Proved: the coefficients are optimal for the returned weights unless the iteration was exhausted, and what rms_resid is the rms of."
  },
  {
   "property": "C49",
   "status": "proved",
   "theorems": [
    "UTide.Props.C49_ols",
    "UTide.Props.C49_returns",
    "UTide.Props.C49_solve"
   ],
   "note": ""
  },
  {
   "property": "C50",
   "status": "partial",
   "theorems": [
    "UTide.Props.C50_vector_partial",
    "UTide.Props.C50_false",
    "UTide.Props.C50_scalar"
   ],
   "note": "False for a vector series whose cosine coefficient of v is exactly zero (C50_false): ut_linci then treats the pair as real and reports zero minor-axis and inclination intervals. Proved for scalar series and for every other non-circular ellipse."
  },
  {
   "property": "C51",
   "status": "proved",
   "theorems": [
    "UTide.Props.C51_coloured"
   ],
   "note": "Scalar run, no inference. Hypothesis: the band power at the constituent is a finite non-negative number and the residual is not identically zero (otherwise the code divides 0 by 0)."
  },
  {
   "property": "C52",
   "status": "partial",
   "theorems": [
    "UTide.Props.C52_partial",
    "UTide.Props.C52_false",
    "UTide.Props.C52_false_white"
   ],
   "note": "Proved for white noise without inference (major axis and phase intervals always; minor axis and inclination when neither component's cosine coefficient is exactly zero). False in general: C52_false (coloured noise: only the second component's variances are rescaled) and C52_false_white (exactly zero cosine coefficient)."
  },
  {
   "property": "C53",
   "status": "proved",
   "theorems": [
    "UTide.Props.C53_ci"
   ],
   "note": ""
  },
  {
   "property": "C54",
   "status": "proved",
   "theorems": [
    "UTide.Props.C54_refused",
    "UTide.Props.C54_error"
   ],
   "note": ""
  },
  {
   "property": "C55",
   "status": "proved",
   "theorems": [
    "UTide.Props.C55_cluster"
   ],
   "note": "The model of cluster (confidence.py 51-60) over the reals; empty array is the IndexError of x[0]."
  },
  {
   "property": "C56",
   "status": "partial",
   "theorems": [
    "UTide.Props.C56_false",
    "UTide.Props.C56_partial"
   ],
   "note": "False as stated: C56_false (the orientation, defined modulo 180 degrees, is clustered with 360, so the same cloud of ellipses gets another theta_ci when the axes are turned). Proved in C56_partial: the spread is invariant modulo 360 degrees, and modulo 180 as long as no orientation passes the cut."
  },
  {
   "property": "C57",
   "status": "proved",
   "theorems": [
    "UTide.Props.C57_nearest",
    "UTide.Props.C57_bounded",
    "UTide.Props.C57_symmetric",
    "UTide.Props.C57_exact"
   ],
   "note": "Closest in Frobenius norm under the SVD contract; the loop bound and symmetry hold for any outcome of the test."
  },
  {
   "property": "C58",
   "status": "proved",
   "theorems": [
    "UTide.Props.C58_mean",
    "UTide.Props.C58_linear",
    "UTide.Props.C58_between"
   ],
   "note": "fbndavg on arbitrary grids; nearest-frequency exclusion follows the rounding of the interpolated index."
  },
  {
   "property": "C59",
   "status": "partial",
   "theorems": [
    "UTide.Props.C59_partial",
    "UTide.Props.C59_false"
   ],
   "note": "False: one frequency at or above the upper edge is averaged in (C59_false); the set really averaged over is in C59_partial."
  },
  {
   "property": "C60",
   "status": "proved",
   "theorems": [
    "UTide.Props.C60_parseval",
    "UTide.Props.C60_band_psd"
   ],
   "note": "FFT as the discrete Fourier sum in exact arithmetic; even length."
  },
  {
   "property": "C61",
   "status": "proved",
   "theorems": [
    "UTide.Props.C61_bounded",
    "UTide.Props.C61_equal"
   ],
   "note": "FFT branch and, under the lomb contract, the Lomb branch."
  },
  {
   "property": "C62",
   "status": "proved",
   "theorems": [
    "UTide.Props.C62_bands",
    "UTide.Props.C62_unambiguous",
    "UTide.Props.C62_catalogue",
    "UTide.Props.C62_power"
   ],
   "note": "The nine bands are read off the table in the code; power of a constituent is that of its band."
  },
  {
   "property": "C63",
   "status": "proved",
   "theorems": [
    "UTide.Props.C63_grid",
    "UTide.Props.C63_sorted",
    "UTide.Props.C63_general"
   ],
   "note": "Every branch of the band-by-band frequency grid."
  },
  {
   "property": "C64",
   "status": "proved",
   "theorems": [
    "UTide.Props.C64_update_values_strict",
    "UTide.Props.C64_update_values_effect"
   ],
   "note": ""
  },
  {
   "property": "C65",
   "status": "proved",
   "theorems": [
    "UTide.Props.C65_update_None"
   ],
   "note": ""
  },
  {
   "property": "C66",
   "status": "proved",
   "theorems": [
    "UTide.Props.C66_attribute_is_item",
    "UTide.Props.C66_shadowed_names"
   ],
   "note": "Names of class members are excluded; C66_shadowed_names states what happens there."
  },
  {
   "property": "C67",
   "status": "proved",
   "theorems": [
    "UTide.Props.C67_index_dict",
    "UTide.Props.C67_frequencies"
   ],
   "note": ""
  },
  {
   "property": "C68",
   "status": "proved",
   "theorems": [
    "UTide.Props.C68_even",
    "UTide.Props.C68_uneven",
    "UTide.Props.C68_reftime",
    "UTide.Props.C68_reftime_even",
    "UTide.Props.C68_inside",
    "UTide.Props.C68_tolerance",
    "UTide.Props.C68_two_spacings"
   ],
   "note": ""
  },
  {
   "property": "C69",
   "status": "partial",
   "theorems": [
    "UTide.Props.C69_partial",
    "UTide.Props.C69_false"
   ],
   "note": "False of the code: rows are multiplied by w, so the equations hold with w squared instead of w (C69_false, C69_partial)."
  },
  {
   "property": "C70",
   "status": "partial",
   "theorems": [
    "UTide.Props.C70_scalar",
    "UTide.Props.C70_vector_partial"
   ],
   "note": "Scalar series: C70_scalar, complete. Vector series: C70_vector_partial gives major axis and phase in general, minor axis and orientation only when the cosine coefficient of v is not exactly zero, where the code is wrong (C50_false). Under the contract of np.linalg.inv."
  },
  {
   "property": "C71",
   "status": "proved",
   "theorems": [
    "UTide.Props.C71_same_fit",
    "UTide.Props.C71_added"
   ],
   "note": "C71_same_fit for any two choices, C71_added when one of the runs has no intervals (then every order is covered)."
  },
  {
   "property": "C72",
   "status": "proved",
   "theorems": [
    "UTide.Props.C72_available",
    "UTide.Props.C72_needed"
   ],
   "note": "C72_available and C72_needed, under the contracts of np.linalg.inv and multivariate_normal."
  },
  {
   "property": "C73",
   "status": "proved",
   "theorems": [
    "UTide.Props.C73_basis_function",
    "UTide.Props.C73_M7"
   ],
   "note": ""
  },
  {
   "property": "C74",
   "status": "proved",
   "theorems": [
    "UTide.Props.C74_infer_none",
    "UTide.Props.C74_accepted"
   ],
   "note": ""
  },
  {
   "property": "C75",
   "status": "proved",
   "theorems": [
    "UTide.Props.C75_returns"
   ],
   "note": ""
  },
  {
   "property": "C76",
   "status": "proved",
   "theorems": [
    "UTide.Props.C76_superposition",
    "UTide.Props.C76_scalar"
   ],
   "note": ""
  },
  {
   "property": "C77",
   "status": "proved",
   "theorems": [
    "UTide.Props.C77_detided",
    "UTide.Props.C77_idempotent"
   ],
   "note": ""
  },
  {
   "property": "C78",
   "status": "proved",
   "theorems": [
    "UTide.Props.C78_orthogonal",
    "UTide.Props.C78_nothing_left",
    "UTide.Props.C78_energy"
   ],
   "note": ""
  },
  {
   "property": "C79",
   "status": "partial",
   "theorems": [
    "UTide.Props.C79_false",
    "UTide.Props.C79_order_partial",
    "UTide.Props.C79_same_reftime_partial"
   ],
   "note": "False as stated (C79_false): with raw phases or linearised times the reference time, the middle of first and last sample in the given order, enters the phases. Proved for Greenwich phases with nodal exact or off, and for any options when the two reference times agree."
  },
  {
   "property": "C80",
   "status": "proved",
   "theorems": [
    "UTide.Props.C80_bound",
    "UTide.Props.C80_no_nodal",
    "UTide.Props.C80_nodal"
   ],
   "note": ""
  },
  {
   "property": "C81",
   "status": "proved",
   "theorems": [
    "UTide.Props.C81_robustfit",
    "UTide.Props.C81_equivariant",
    "UTide.Props.C81_scale"
   ],
   "note": ""
  },
  {
   "property": "C82",
   "status": "proved",
   "theorems": [
    "UTide.Props.C82_weights"
   ],
   "note": ""
  },
  {
   "property": "C83",
   "status": "proved",
   "theorems": [
    "UTide.Props.C83_snr"
   ],
   "note": ""
  },
  {
   "property": "C84",
   "status": "proved",
   "theorems": [
    "UTide.Props.C84_units"
   ],
   "note": ""
  },
  {
   "property": "C85",
   "status": "proved",
   "theorems": [
    "UTide.Props.C85_drift"
   ],
   "note": ""
  },
  {
   "property": "C86",
   "status": "proved",
   "theorems": [
    "UTide.Props.C86_listing",
    "UTide.Props.C86_order",
    "UTide.Props.C86_aligned",
    "UTide.Props.C86_empty",
    "UTide.Props.C86_nested_empty"
   ],
   "note": ""
  },
  {
   "property": "C87",
   "status": "proved",
   "theorems": [
    "UTide.Props.C87_load",
    "UTide.Props.C87_other"
   ],
   "note": ""
  },
  {
   "property": "C88",
   "status": "proved",
   "theorems": [
    "UTide.Props.C88_show",
    "UTide.Props.C88_empty"
   ],
   "note": ""
  },
  {
   "property": "C89",
   "status": "partial",
   "theorems": [
    "UTide.Props.C89_convert_partial",
    "UTide.Props.C89_false",
    "UTide.Props.C89_again"
   ],
   "note": "False as documented (C89_false): strings inside object arrays keep trailing white space, and a 1-D array of one string becomes an array. What is done is proved value by value."
  },
  {
   "property": "C90",
   "status": "partial",
   "theorems": [
    "UTide.Props.C90_offset_partial",
    "UTide.Props.C90_reduced_partial",
    "UTide.Props.C90_false"
   ],
   "note": "C90_false: the claim fails, for an offset of 0 the interval is r/sqrt(2) times that of the reference. C90_offset_partial gives both intervals for every ratio and phase offset in terms of amplitude and intervals of the reference; C90_reduced_partial the case of multiples of 180 degrees. Currents are not covered."
  },
  {
   "property": "C91",
   "status": "partial",
   "theorems": [
    "UTide.Props.C91_noinference_partial",
    "UTide.Props.C91_false"
   ],
   "note": "C91_false: with both reference and other constituents the variances are read from the wrong columns of the covariance. C91_noinference_partial: the claim holds when nothing is inferred."
  },
  {
   "property": "C92",
   "status": "proved",
   "theorems": [
    "UTide.Props.C92_primary",
    "UTide.Props.C92_compound",
    "UTide.Props.C92_never_zero"
   ],
   "note": ""
  },
  {
   "property": "C93",
   "status": "proved",
   "theorems": [
    "UTide.Props.C93_components"
   ],
   "note": ""
  },
  {
   "property": "C94",
   "status": "proved",
   "theorems": [
    "UTide.Props.C94_nested"
   ],
   "note": ""
  },
  {
   "property": "C95",
   "status": "proved",
   "theorems": [
    "UTide.Props.C95_constituents",
    "UTide.Props.C95_list"
   ],
   "note": ""
  },
  {
   "property": "C96",
   "status": "proved",
   "theorems": [
    "UTide.Props.C96_agree",
    "UTide.Props.C96_band_psd"
   ],
   "note": ""
  },
  {
   "property": "C97",
   "status": "proved",
   "theorems": [
    "UTide.Props.C97_origin"
   ],
   "note": ""
  },
  {
   "property": "C98",
   "status": "proved",
   "theorems": [
    "UTide.Props.C98_best_sinusoid"
   ],
   "note": ""
  },
  {
   "property": "C99",
   "status": "proved",
   "theorems": [
    "UTide.Props.C99_modular",
    "UTide.Props.C99_each"
   ],
   "note": ""
  },
  {
   "property": "C100",
   "status": "proved",
   "theorems": [
    "UTide.Props.C100_mirror"
   ],
   "note": ""
  },
  {
   "property": "C101",
   "status": "proved",
   "theorems": [
    "UTide.Props.C101_hourly",
    "UTide.Props.C101_separated",
    "UTide.Props.C101_scalar",
    "UTide.Props.C101_vector",
    "UTide.Props.C101_intervals",
    "UTide.Props.C101_aliased"
   ],
   "note": ""
  },
  {
   "property": "C102",
   "status": "proved",
   "theorems": [
    "UTide.Props.C102_entries",
    "UTide.Props.C102_arrays",
    "UTide.Props.C102_values",
    "UTide.Props.C102_reconstruct",
    "UTide.Props.C102_axes",
    "UTide.Props.C102_again"
   ],
   "note": ""
  },
  {
   "property": "C103",
   "status": "proved",
   "theorems": [
    "UTide.Props.C103_filled",
    "UTide.Props.C103_gaps"
   ],
   "note": ""
  },
  {
   "property": "C104",
   "status": "proved",
   "theorems": [
    "UTide.Props.C104_contraction",
    "UTide.Props.C104_single"
   ],
   "note": ""
  },
  {
   "property": "C105",
   "status": "partial",
   "theorems": [
    "UTide.Props.C105_partial",
    "UTide.Props.C105_false"
   ],
   "note": "False of the code: solve reads the attribute shape of its arguments, so lists and tuples are an AttributeError (C105_false). C105_partial says which calls work and which error the others raise; reconstruct takes lists."
  },
  {
   "property": "C106",
   "status": "proved",
   "theorems": [
    "UTide.Props.C106_outcome",
    "UTide.Props.C106_plan"
   ],
   "note": ""
  },
  {
   "property": "C107",
   "status": "proved",
   "theorems": [
    "UTide.Props.C107_repeated",
    "UTide.Props.C107_same_reftime"
   ],
   "note": ""
  },
  {
   "property": "C108",
   "status": "proved",
   "theorems": [
    "UTide.Props.C108_reduced"
   ],
   "note": ""
  },
  {
   "property": "C109",
   "status": "proved",
   "theorems": [
    "UTide.Props.C109_psd",
    "UTide.Props.C109_vector",
    "UTide.Props.C109_scalar",
    "UTide.Props.C109_coloured_vector",
    "UTide.Props.C109_coloured_scalar"
   ],
   "note": ""
  },
  {
   "property": "C110",
   "status": "proved",
   "theorems": [
    "UTide.Props.C110_scalar",
    "UTide.Props.C110_vector"
   ],
   "note": ""
  },
  {
   "property": "C111",
   "status": "partial",
   "theorems": [
    "UTide.Props.C111_false",
    "UTide.Props.C111_partial"
   ],
   "note": "False of the code in general (C111_false): the spread of complex residuals is measured around np.median, which orders complex numbers by their real part. Proved for half turns, for the weight function ols, and for rectilinear currents."
  },
  {
   "property": "C112",
   "status": "partial",
   "theorems": [
    "UTide.Props.C112_partial",
    "UTide.Props.C112_false"
   ],
   "note": "False of the code for coloured noise (C112_false; the NaN there is an exact-arithmetic effect, in floating point rounding noise replaces the zero variances and those of u remain unscaled, which is not proved). Proved for white noise."
  },
  {
   "property": "C113",
   "status": "proved",
   "theorems": [
    "UTide.Props.C113_repeated"
   ],
   "note": "White noise, ordinary least squares, no inference; same constituents and reference time in both runs."
  },
  {
   "property": "C114",
   "status": "partial",
   "theorems": [
    "UTide.Props.C114_partial",
    "UTide.Props.C114_zeros",
    "UTide.Props.C114_false"
   ],
   "note": "False of the code: a record of zeros makes sigma_hat zero and the next lstsq fails (C114_zeros, C114_false). Proved for the weight functions without zero weights (cauchy, fair, welsch) when no curve passes through more than half of the samples; not proved for bisquare and talwar, whose zero weights can remove samples."
  },
  {
   "property": "C115",
   "status": "proved",
   "theorems": [
    "UTide.Props.C115_elevation",
    "UTide.Props.C115_current"
   ],
   "note": ""
  },
  {
   "property": "C116",
   "status": "partial",
   "theorems": [
    "UTide.Props.C116_alone",
    "UTide.Props.C116_repeated",
    "UTide.Props.C116_returns_partial",
    "UTide.Props.C116_false"
   ],
   "note": "false in two exactly described situations (C116_alone: IndexError; C116_repeated: ValueError); all other sound calls, with a list of constituents or an automatic selection, are shown to return, except exact inference from NO1, OO1, UPS1 with nodal corrections, which is not covered (their nodal factor may vanish)"
  },
  {
   "property": "C117",
   "status": "proved",
   "theorems": [
    "UTide.Props.C117_fits",
    "UTide.Props.C117_frequencies",
    "UTide.Props.C117_separated",
    "UTide.Props.C117_scalar",
    "UTide.Props.C117_vector",
    "UTide.Props.C117_returns"
   ],
   "note": "reference times within [0, 4000000] days; separation and recovery for corrections off or at the reference time (the exact corrections are not periodic); with nodal corrections records below 650*Rayleigh_min hours, where NO1, OO1, UPS1 are not selected"
  },
  {
   "property": "C118",
   "status": "proved",
   "theorems": [
    "UTide.Props.C118_smooth",
    "UTide.Props.C118_crossing",
    "UTide.Props.C118_rate"
   ],
   "note": ""
  },
  {
   "property": "C119",
   "status": "proved",
   "theorems": [
    "UTide.Props.C119_modes",
    "UTide.Props.C119_phase",
    "UTide.Props.C119_nodal"
   ],
   "note": ""
  },
  {
   "property": "C120",
   "status": "proved",
   "theorems": [
    "UTide.Props.C120_weights",
    "UTide.Props.C120_solve"
   ],
   "note": ""
  },
  {
   "property": "C121",
   "status": "proved",
   "theorems": [
    "UTide.Props.C121_unbiased",
    "UTide.Props.C121_prediction",
    "UTide.Props.C121_residual",
    "UTide.Props.C121_calibrated"
   ],
   "note": ""
  },
  {
   "property": "C122",
   "status": "proved",
   "theorems": [
    "UTide.Props.C122_withheld",
    "UTide.Props.C122_single"
   ],
   "note": ""
  },
  {
   "property": "C123",
   "status": "partial",
   "theorems": [
    "UTide.Props.C123_false",
    "UTide.Props.C123_partial",
    "UTide.Props.C123_robust"
   ],
   "note": "Full statement false: solve returns zeros for an evenly spaced record of missing values when conf_int='none'."
  },
  {
   "property": "C124",
   "status": "proved",
   "theorems": [
    "UTide.Props.C124_difference",
    "UTide.Props.C124_threshold"
   ],
   "note": ""
  },
  {
   "property": "C125",
   "status": "proved",
   "theorems": [
    "UTide.Props.C125_misfit",
    "UTide.Props.C125_agree"
   ],
   "note": ""
  },
  {
   "property": "C126",
   "status": "proved",
   "theorems": [
    "UTide.Props.C126_uncorrelated"
   ],
   "note": ""
  },
  {
   "property": "C127",
   "status": "proved",
   "theorems": [
    "UTide.Props.C127_average",
    "UTide.Props.C127_interval"
   ],
   "note": ""
  },
  {
   "property": "C128",
   "status": "proved",
   "theorems": [
    "UTide.Props.C128_hourly",
    "UTide.Props.C128_mean",
    "UTide.Props.C128_share"
   ],
   "note": ""
  },
  {
   "property": "C129",
   "status": "partial",
   "theorems": [
    "UTide.Props.C129_white_partial",
    "UTide.Props.C129_descending",
    "UTide.Props.C129_uneven",
    "UTide.Props.C129_false"
   ],
   "note": "false for coloured noise (C129_false): descending times give NaN intervals (C129_descending) or an error (C129_uneven); proved for white noise"
  },
  {
   "property": "C130",
   "status": "proved",
   "theorems": [
    "UTide.Props.C130_frequencies",
    "UTide.Props.C130_distinct",
    "UTide.Props.C130_order",
    "UTide.Props.C130_band"
   ],
   "note": "reference times outside years 0 to 10950 not covered"
  },
  {
   "property": "C131",
   "status": "proved",
   "theorems": [
    "UTide.UTide.Props.C131_equal",
    "UTide.UTide.Props.C131_shared"
   ],
   "note": "method='ols' without inference"
  },
  {
   "property": "C132",
   "status": "proved",
   "theorems": [
    "UTide.UTide.Props.C132_alike",
    "UTide.UTide.Props.C132_opposed",
    "UTide.UTide.Props.C132_constant",
    "UTide.UTide.Props.C132_third",
    "UTide.UTide.Props.C132_grid",
    "UTide.UTide.Props.C132_whole"
   ],
   "note": "method='ols' without inference"
  },
  {
   "property": "C133",
   "status": "proved",
   "theorems": [
    "UTide.Props.C133_nodal",
    "UTide.Props.C133_nodal_fits",
    "UTide.Props.C133_rates",
    "UTide.Props.C133_arguments",
    "UTide.Props.C133_harmonics",
    "UTide.Props.C133_fits"
   ],
   "note": "method='ols' without inference for the fits; M7 excluded (C40)"
  },
  {
   "property": "C134",
   "status": "proved",
   "theorems": [
    "UTide.Props.C134_backwards",
    "UTide.Props.C134_raw",
    "UTide.Props.C134_prediction"
   ],
   "note": "phase='Greenwich' and nodal=True excluded: their harmonics have no such symmetry"
  },
  {
   "property": "C135",
   "status": "proved",
   "theorems": [
    "UTide.Props.C135_more_samples",
    "UTide.Props.C135_more_constituents"
   ],
   "note": "scalar series and white noise only; the ratio to the noise variance, since the variance estimate itself can move either way"
  },
  {
   "property": "C136",
   "status": "proved",
   "theorems": [
    "UTide.Props.C136_again"
   ],
   "note": "for corrections evaluated at the reference time ('linear_time', raw) the two reference times have to agree"
  },
  {
   "property": "C137",
   "status": "proved",
   "theorems": [
    "UTide.Props.C137_white",
    "UTide.Props.C137_coloured"
   ],
   "note": "scalar series; vector series of ordinary least squares are C70, C101"
  },
  {
   "property": "C138",
   "status": "proved",
   "theorems": [
    "UTide.Props.C138_available",
    "UTide.Props.C138_needed"
   ],
   "note": ""
  },
  {
   "property": "C139",
   "status": "proved",
   "theorems": [
    "UTide.Props.C139_pairs",
    "UTide.Props.C139_exception",
    "UTide.Props.C139_reported",
    "UTide.Props.C139_days",
    "UTide.Props.C139_comparison"
   ],
   "note": ""
  },
  {
   "property": "C140",
   "status": "proved",
   "theorems": [
    "UTide.Props.C140_built",
    "UTide.Props.C140_precedence",
    "UTide.Props.C140_copy"
   ],
   "note": ""
  },
  {
   "property": "C141",
   "status": "proved",
   "theorems": [
    "UTide.Props.C141_split",
    "UTide.Props.C141_scalar",
    "UTide.Props.C141_vector",
    "UTide.Props.C141_constituent",
    "UTide.Props.C141_orthogonal",
    "UTide.Props.C141_amplitude",
    "UTide.Props.C141_error"
   ],
   "note": ""
  },
  {
   "property": "C142",
   "status": "proved",
   "theorems": [
    "UTide.Props.C142_program",
    "UTide.Props.C142_effect",
    "UTide.Props.C142_raises"
   ],
   "note": ""
  },
  {
   "property": "C143",
   "status": "proved",
   "theorems": [
    "UTide.Props.C143_interp",
    "UTide.Props.C143_unique",
    "UTide.Props.C143_bounded",
    "UTide.Props.C143_power",
    "UTide.Props.C143_solve"
   ],
   "note": ""
  },
  {
   "property": "C144",
   "status": "proved",
   "theorems": [
    "UTide.Props.C144_height",
    "UTide.Props.C144_current",
    "UTide.Props.C144_refused",
    "UTide.Props.C144_determined",
    "UTide.Props.C144_samples"
   ],
   "note": ""
  },
  {
   "property": "C145",
   "status": "proved",
   "theorems": [
    "UTide.Props.C145_white"
   ],
   "note": ""
  },
  {
   "property": "C146",
   "status": "partial",
   "theorems": [
    "UTide.Props.C146_isotropic_partial",
    "UTide.Props.C146_false"
   ],
   "note": "C146_false: the correlation of the residuals of the two components is ignored, so the intervals depend on the axes (factor \u221a2 for a current along a line). C146_isotropic_partial: holds for every angle when the residuals of the components have equal sums of squares and zero correlation."
  },
  {
   "property": "C147",
   "status": "proved",
   "theorems": [
    "UTide.Props.C147_order",
    "UTide.Props.C147_basis",
    "UTide.Props.C147_constituents"
   ],
   "note": "C147_order: permuted observations. C147_basis: any invertible combination of the columns. C147_constituents: two robust runs of solve for the same constituents."
  },
  {
   "property": "C148",
   "status": "proved",
   "theorems": [
    "UTide.Props.C148_same_reftime",
    "UTide.Props.C148_order"
   ],
   "note": "C148_order: Greenwich phases. C148_same_reftime: any options, same reference time. As C79_false shows for least squares, raw phases depend on which samples come first and last."
  },
  {
   "property": "C149",
   "status": "partial",
   "theorems": [
    "UTide.Props.C149_false",
    "UTide.Props.C149_grid_partial",
    "UTide.Props.C149_no_effect",
    "UTide.Props.C149_noise"
   ],
   "note": "The full statement is false (C149_false); what the code does instead is C149_grid_partial, C149_no_effect and C149_noise."
  },
  {
   "property": "C150",
   "status": "proved",
   "theorems": [
    "UTide.Props.C150_mean",
    "UTide.Props.C150_excluded",
    "UTide.Props.C150_defaults",
    "UTide.Props.C150_bands",
    "UTide.Props.C150_constituents",
    "UTide.Props.C150_nonneg"
   ],
   "note": "A band reaches from its lower edge up to and including the first frequency not below its upper edge (see C59)."
  },
  {
   "property": "C151",
   "status": "proved",
   "theorems": [
    "UTide.Props.C151_even",
    "UTide.Props.C151_uneven",
    "UTide.Props.C151_none",
    "UTide.Props.C151_frequencies"
   ],
   "note": "scipy's lombscargle by its contract LombOk."
  },
  {
   "property": "C152",
   "status": "proved",
   "theorems": [
    "UTide.Props.C152_options",
    "UTide.Props.C152_latitude"
   ],
   "note": "MC_n is not read by the code at all (200 samples are always drawn), so it is among the options without effect."
  },
  {
   "property": "C153",
   "status": "proved",
   "theorems": [
    "UTide.Props.C153_needed",
    "UTide.Props.C153_latitude",
    "UTide.Props.C153_options"
   ],
   "note": "Equality includes the errors that stop a prediction."
  },
  {
   "property": "C154",
   "status": "proved",
   "theorems": [
    "UTide.Props.C154_fits",
    "UTide.Props.C154_misfit",
    "UTide.Props.C154_reference",
    "UTide.Props.C154_constituents",
    "UTide.Props.C154_harmonics",
    "UTide.Props.C154_predictions"
   ],
   "note": "Exact equality of raw phases is not claimed: the code linearises the astronomical arguments at the reference time, so the frequencies depend on the date."
  },
  {
   "property": "C155",
   "status": "proved",
   "theorems": [
    "UTide.Props.C155_line"
   ],
   "note": "Intervals are left out (conf_int='none'), as is the order by SNR which reads them."
  },
  {
   "property": "C156",
   "status": "proved",
   "theorems": [
    "UTide.Props.C156_mean",
    "UTide.Props.C156_hourly",
    "UTide.Props.C156_limit"
   ],
   "note": "With exact nodal corrections or phases the harmonics are no pure sinusoids and the bound is not claimed."
  },
  {
   "property": "C157",
   "status": "proved",
   "theorems": [
    "UTide.Props.C157_nodal",
    "UTide.Props.C157_period"
   ],
   "note": "C157_nodal: with nodal='linear_time' the same holds with the semi-axes times the nodal factor."
  },
  {
   "property": "C158",
   "status": "proved",
   "theorems": [
    "UTide.Props.C158_beside",
    "UTide.Props.C158_leak"
   ],
   "note": "For a record with other tides besides, the analysis is additive (C76)."
  },
  {
   "property": "C159",
   "status": "proved",
   "theorems": [
    "UTide.Props.C159_envelope",
    "UTide.Props.C159_neaps"
   ],
   "note": "Elevations only; without nodal corrections."
  },
  {
   "property": "C160",
   "status": "proved",
   "theorems": [
    "UTide.Props.C160_normal",
    "UTide.Props.C160_mean",
    "UTide.Props.C160_line"
   ],
   "note": ""
  }
 ]
}
