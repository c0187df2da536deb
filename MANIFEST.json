{
 "claims": [
  {
   "property": "C01",
   "status": "proved",
   "theorems": [
    "Robpy.C01_qn_exact",
    "Robpy.C01_qn_corrected",
    "Robpy.C01_dn_range",
    "Robpy.C01_qn_small"
   ],
   "note": "Exact arithmetic. Loop bound n^2; order statistic specification counts pairwise distances."
  },
  {
   "property": "C02",
   "status": "proved",
   "theorems": [
    "Robpy.C02_weighted_median",
    "Robpy.C02_unique",
    "Robpy.C02_empty"
   ],
   "note": ""
  },
  {
   "property": "C03",
   "status": "proved",
   "theorems": [
    "Robpy.C03_global_optimum"
   ],
   "note": "Raw variance before the consistency factor; every h-element sub-multiset."
  },
  {
   "property": "C04",
   "status": "proved",
   "theorems": [
    "Robpy.C04_range",
    "Robpy.C04_error",
    "Robpy.C04_one",
    "Robpy.C04_values"
   ],
   "note": ""
  },
  {
   "property": "C05",
   "status": "proved",
   "theorems": [
    "Robpy.C05_affine",
    "Robpy.C05_perm",
    "Robpy.C05_nonneg"
   ],
   "note": ""
  },
  {
   "property": "C06",
   "status": "proved",
   "theorems": [
    "Robpy.C06_affine",
    "Robpy.C06_perm",
    "Robpy.C06_reflection_variance",
    "Robpy.C06_reflection_location_fails"
   ],
   "note": "a>0; for a<0 only the variance is equivariant, witness for the location (ties between windows)."
  },
  {
   "property": "C07",
   "status": "proved",
   "theorems": [
    "Robpy.C07_location",
    "Robpy.C07_location_affine",
    "Robpy.C07_scale_bound",
    "Robpy.C07_corrected",
    "Robpy.C07_affine"
   ],
   "note": ""
  },
  {
   "property": "C08",
   "status": "proved",
   "theorems": [
    "Robpy.C08_location",
    "Robpy.C08_scale",
    "Robpy.C08_nan",
    "Robpy.C08_small_constant_nan"
   ],
   "note": "Tukey constant c>=1 (witness that a smaller one can give NaN), Huber b>0."
  },
  {
   "property": "C09",
   "status": "partial",
   "theorems": [
    "Robpy.C09_violated",
    "Robpy.C09_location_partial",
    "Robpy.C09_translation",
    "Robpy.C09_scale"
   ],
   "note": "Violated by the code for the location when both MADs are below min_abs_scale: residuals are then not scaled. Proved for MADs above, for translations, and for the scale."
  },
  {
   "property": "C10",
   "status": "proved",
   "theorems": [
    "Robpy.C10_no_explosion"
   ],
   "note": ""
  },
  {
   "property": "C100",
   "status": "proved",
   "theorems": [
    "Robpy.C100_reported"
   ],
   "note": ""
  },
  {
   "property": "C101",
   "status": "partial",
   "theorems": [
    "Robpy.C101_violated",
    "Robpy.C101_negative",
    "Robpy.C101_scale_partial"
   ],
   "note": "Violated by the code: negative for four observations of a two-level factor and default settings. Proved: for enough rows the scale is at least the root mean squared residual."
  },
  {
   "property": "C102",
   "status": "partial",
   "theorems": [
    "Robpy.C102_violated",
    "Robpy.C102_single_row",
    "Robpy.C102_rows_partial"
   ],
   "note": "Violated by the code: no constant is added to a batch in which a column is constant and not 0. Proved for the other batches."
  },
  {
   "property": "C103",
   "status": "partial",
   "theorems": [
    "Robpy.C103_violated",
    "Robpy.C103_never",
    "Robpy.C103_i_step_partial"
   ],
   "note": "Violated by the code (in exact arithmetic): for the targets 1, 1, 1, 11 and a constant column the fit never ends. Proved: what a step does from an exact fit of the majority."
  },
  {
   "property": "C104",
   "status": "proved",
   "theorems": [
    "Robpy.C104_reported",
    "Robpy.C104_stationary"
   ],
   "note": ""
  },
  {
   "property": "C105",
   "status": "partial",
   "theorems": [
    "Robpy.C105_violated",
    "Robpy.C105_handler",
    "Robpy.C105_tukey_partial"
   ],
   "note": "Violated by the code for Huber's function without initial steps: the handler reads an unbound variable. Proved for the bisquare function."
  },
  {
   "property": "C106",
   "status": "partial",
   "theorems": [
    "Robpy.C106_violated",
    "Robpy.C106_exact",
    "Robpy.C106_only_partial"
   ],
   "note": "Violated by the code: an observation that is fitted exactly raises ValueError. Proved: nothing else raises."
  },
  {
   "property": "C107",
   "status": "partial",
   "theorems": [
    "Robpy.C107_violated",
    "Robpy.C107_scale_partial"
   ],
   "note": "Violated by the code for the addition of a constant. Proved for multiplication."
  },
  {
   "property": "C108",
   "status": "proved",
   "theorems": [
    "Robpy.C108_reported",
    "Robpy.C108_none"
   ],
   "note": ""
  },
  {
   "property": "C109",
   "status": "proved",
   "theorems": [
    "Robpy.C109_rows_independent"
   ],
   "note": "For every arithmetic, including IEEE."
  },
  {
   "property": "C11",
   "status": "proved",
   "theorems": [
    "Robpy.C11_no_explosion"
   ],
   "note": ""
  },
  {
   "property": "C110",
   "status": "partial",
   "theorems": [
    "Robpy.C110_violated",
    "Robpy.C110_missing_row",
    "Robpy.C110_single_common_row",
    "Robpy.C110_completes_partial"
   ],
   "note": "Violated by the code: a row without an observed cell, or two columns with one common usable row, make fit raise. Proved in exact arithmetic: fit returns if the correlations are numbers and every row has an observed cell in a column with a non-zero residual scale."
  },
  {
   "property": "C111",
   "status": "partial",
   "theorems": [
    "Robpy.C111_violated",
    "Robpy.C111_check_partial",
    "Robpy.C111_mixed"
   ],
   "note": "Violated by the code: location_ and scale_ are replaced before the steps that may fail. Proved: nothing changes if the data check fails, and what the object contains otherwise."
  },
  {
   "property": "C112",
   "status": "partial",
   "theorems": [
    "Robpy.C112_violated",
    "Robpy.C112_fewer_than_ten",
    "Robpy.C112_verbose_partial"
   ],
   "note": "Violated by the code: with fewer than ten columns verbose=True raises ZeroDivisionError. Proved for ten and more columns."
  },
  {
   "property": "C113",
   "status": "proved",
   "theorems": [
    "Robpy.C113_units",
    "Robpy.C113_default_estimator"
   ],
   "note": "In exact arithmetic."
  },
  {
   "property": "C114",
   "status": "partial",
   "theorems": [
    "Robpy.C114_violated",
    "Robpy.C114_distinct_partial"
   ],
   "note": "Violated by the code: exactly three distinct values are rejected too. Proved: the threshold is four."
  },
  {
   "property": "C115",
   "status": "proved",
   "theorems": [
    "Robpy.C115_symmetric",
    "Robpy.C115_bounds"
   ],
   "note": ""
  },
  {
   "property": "C116",
   "status": "proved",
   "theorems": [
    "Robpy.C116_own_cell_not_used"
   ],
   "note": ""
  },
  {
   "property": "C117",
   "status": "proved",
   "theorems": [
    "Robpy.C117_descent",
    "Robpy.C117_column"
   ],
   "note": ""
  },
  {
   "property": "C118",
   "status": "partial",
   "theorems": [
    "Robpy.C118_violated",
    "Robpy.C118_unbound",
    "Robpy.C118_result_partial"
   ],
   "note": "Violated by the code: max_c_steps = 0 or crit >= 1 raises UnboundLocalError. Proved for all other values."
  },
  {
   "property": "C119",
   "status": "proved",
   "theorems": [
    "Robpy.C119_imputed",
    "Robpy.C119_with_ddcw"
   ],
   "note": "The first theorem holds for every initial estimator that meets DDCWContract, the second for the model of InitialDDCW."
  },
  {
   "property": "C12",
   "status": "proved",
   "theorems": [
    "Robpy.C12_breakdown"
   ],
   "note": ""
  },
  {
   "property": "C120",
   "status": "proved",
   "theorems": [
    "Robpy.C120_positive",
    "Robpy.C120_with_ddcw"
   ],
   "note": "The first theorem holds for every initial estimator that meets DDCWContract, the second for the model of InitialDDCW."
  },
  {
   "property": "C121",
   "status": "partial",
   "theorems": [
    "Robpy.C121_violated",
    "Robpy.C121_units_partial"
   ],
   "note": "Violated by the code: the bound 1e-8 on the median absolute deviation is absolute. Proved when it is respected in both units."
  },
  {
   "property": "C122",
   "status": "partial",
   "theorems": [
    "Robpy.C122_violated",
    "Robpy.C122_repeat_partial"
   ],
   "note": "Violated by the code: fit overwrites alpha. Proved when no earlier data set needs a larger alpha than the present one."
  },
  {
   "property": "C123",
   "status": "proved",
   "theorems": [
    "Robpy.C123_slopes",
    "Robpy.C123_deshrinkage"
   ],
   "note": "Exact arithmetic with NaN; the deshrinkage part is for columns without NaN among the raw predictions."
  },
  {
   "property": "C124",
   "status": "proved",
   "theorems": [
    "Robpy.C124_columns"
   ],
   "note": ""
  },
  {
   "property": "C125",
   "status": "partial",
   "theorems": [
    "Robpy.C125_violated",
    "Robpy.C125_missing_take_the_places",
    "Robpy.C125_largest_partial"
   ],
   "note": "Violated by the code: cells without residual come first in the reversed ordering. Proved for columns without missing residuals."
  },
  {
   "property": "C126",
   "status": "proved",
   "theorems": [
    "Robpy.C126_positive",
    "Robpy.ddcw_contract"
   ],
   "note": ""
  },
  {
   "property": "C127",
   "status": "proved",
   "theorems": [
    "Robpy.C127_one_column",
    "Robpy.C127_cellmcd"
   ],
   "note": ""
  },
  {
   "property": "C128",
   "status": "proved",
   "theorems": [
    "Robpy.C128_line"
   ],
   "note": ""
  },
  {
   "property": "C129",
   "status": "partial",
   "theorems": [
    "Robpy.C129_violated",
    "Robpy.C129_missing_disables",
    "Robpy.C129_complete_partial",
    "Robpy.C129_rows_partial"
   ],
   "note": "Violated by the code: with a missing cell the median of the distances is NaN and no row is left out. Proved for complete data: C129_complete_partial for the rule, C129_rows_partial for which rows each of the two passes of the estimator uses."
  },
  {
   "property": "C13",
   "status": "proved",
   "theorems": [
    "Robpy.C13_deriv",
    "Robpy.C13_even",
    "Robpy.C13_range",
    "Robpy.C13_mono",
    "Robpy.C13_weight"
   ],
   "note": ""
  },
  {
   "property": "C130",
   "status": "partial",
   "theorems": [
    "Robpy.C130_violated",
    "Robpy.C130_common_factor_partial"
   ],
   "note": "Violated by the code: standardised rows are measured with the covariance in the units of the data. Proved for a common factor."
  },
  {
   "property": "C131",
   "status": "proved",
   "theorems": [
    "Robpy.C131_units"
   ],
   "note": ""
  },
  {
   "property": "C132",
   "status": "partial",
   "theorems": [
    "Robpy.C132_violated",
    "Robpy.C132_partial",
    "Robpy.C132_median_row"
   ],
   "note": "Violated by the code: a row that consists of the medians of the columns has norm 0 after the standardisation, and the spatial signs divide by it. Proved: for data in general position a result is returned exactly when there is no such row."
  },
  {
   "property": "C133",
   "status": "proved",
   "theorems": [
    "Robpy.C133_few_rows"
   ],
   "note": ""
  },
  {
   "property": "C134",
   "status": "proved",
   "theorems": [
    "Robpy.C134_one_column"
   ],
   "note": ""
  },
  {
   "property": "C135",
   "status": "proved",
   "theorems": [
    "Robpy.C135_variances",
    "Robpy.C135_from"
   ],
   "note": ""
  },
  {
   "property": "C136",
   "status": "proved",
   "theorems": [
    "Robpy.C136_directions",
    "Robpy.C136_stage"
   ],
   "note": ""
  },
  {
   "property": "C137",
   "status": "partial",
   "theorems": [
    "Robpy.C137_violated",
    "Robpy.C137_one_feature",
    "Robpy.C137_more_features_partial"
   ],
   "note": "Violated by the code: with one feature np.cov returns a 0-dimensional array, for which det and inv raise. Proved for more features and non-robust distances."
  },
  {
   "property": "C138",
   "status": "partial",
   "theorems": [
    "Robpy.C138_violated",
    "Robpy.C138_nan_iff",
    "Robpy.C138_exact_fit",
    "Robpy.C138_distinct_partial"
   ],
   "note": "Violated by the code: if the model fits more than half of the observations exactly, the MAD is 0 and these observations get 0 / 0. Proved when no value is shared by half of the residuals."
  },
  {
   "property": "C139",
   "status": "proved",
   "theorems": [
    "Robpy.C139_invariant"
   ],
   "note": ""
  },
  {
   "property": "C14",
   "status": "proved",
   "theorems": [
    "Robpy.C14_deriv",
    "Robpy.C14_even",
    "Robpy.C14_psi_bounded",
    "Robpy.C14_range",
    "Robpy.C14_mono",
    "Robpy.C14_weight"
   ],
   "note": ""
  },
  {
   "property": "C140",
   "status": "proved",
   "theorems": [
    "Robpy.C140_not_masked"
   ],
   "note": ""
  },
  {
   "property": "C141",
   "status": "partial",
   "theorems": [
    "Robpy.C141_violated",
    "Robpy.C141_pandas",
    "Robpy.C141_iff_partial"
   ],
   "note": "Violated by the code: y.reshape does not exist for a Series, and the mean of a DataFrame has no flatten."
  },
  {
   "property": "C142",
   "status": "proved",
   "theorems": [
    "Robpy.C142_inliers"
   ],
   "note": "The optimiser is a parameter. Fits with a scale 0 are excluded by the hypothesis."
  },
  {
   "property": "C143",
   "status": "partial",
   "theorems": [
    "Robpy.C143_violated",
    "Robpy.C143_masked",
    "Robpy.C143_few_partial"
   ],
   "note": "Violated by the code: from the second step on the weights come from the plain mean and standard deviation of all transformed values, which can never put more than a fraction 1 / cutoff^2 (15 percent) of the observations beyond the cutoff; samples of up to 6 never lose one. C143_few_partial is that bound for every sample."
  },
  {
   "property": "C144",
   "status": "partial",
   "theorems": [
    "Robpy.C144_violated",
    "Robpy.C144_zero",
    "Robpy.C144_positive_partial"
   ],
   "note": "Violated by the code: nsteps=0 leaves xt, w and lambda_rew unassigned. Proved for at least one step."
  },
  {
   "property": "C145",
   "status": "proved",
   "theorems": [
    "Robpy.C145_boxcox",
    "Robpy.C145_yeojohnson"
   ],
   "note": "For the explicit methods; Yeo-Johnson for data with positive median absolute deviation."
  },
  {
   "property": "C146",
   "status": "proved",
   "theorems": [
    "Robpy.C146_order"
   ],
   "note": ""
  },
  {
   "property": "C147",
   "status": "proved",
   "theorems": [
    "Robpy.C147_auto"
   ],
   "note": "The criterion is the one the code computes, on the data before standardisation."
  },
  {
   "property": "C148",
   "status": "proved",
   "theorems": [
    "Robpy.C148_likelihood"
   ],
   "note": ""
  },
  {
   "property": "C149",
   "status": "proved",
   "theorems": [
    "Robpy.C149_scale",
    "Robpy.C149_fit"
   ],
   "note": "C149_fit shows that the hypotheses of C149_scale on predictions and standard deviations hold after every successful fit. OneStepWrapping is the modelled estimator."
  },
  {
   "property": "C15",
   "status": "proved",
   "theorems": [
    "Robpy.C15_never_sees_nan",
    "Robpy.C15_ignore_nan",
    "Robpy.C15_error_keeps_state",
    "Robpy.C15_history"
   ],
   "note": "_calculate is a parameter that either raises or returns both values."
  },
  {
   "property": "C150",
   "status": "proved",
   "theorems": [
    "Robpy.C150_residuals",
    "Robpy.C150_plots"
   ],
   "note": "Same hypothesis on the MAD (at least 1e-8 before and after) as C121; bivariate plots for a non-singular 2x2 covariance."
  },
  {
   "property": "C151",
   "status": "proved",
   "theorems": [
    "Robpy.C151_curve",
    "Robpy.C151_named",
    "Robpy.C151_plot"
   ],
   "note": "The curve for all angles; the plot joins 201 of its points."
  },
  {
   "property": "C152",
   "status": "proved",
   "theorems": [
    "Robpy.C152_lines",
    "Robpy.C152_index",
    "Robpy.C152_thresholds",
    "Robpy.C152_errors",
    "Robpy.C152_same",
    "Robpy.C152_annotation"
   ],
   "note": ""
  },
  {
   "property": "C153",
   "status": "partial",
   "theorems": [
    "Robpy.C153_violated",
    "Robpy.C153_runtime",
    "Robpy.C153_power",
    "Robpy.C153_ddc",
    "Robpy.C153_clone_partial"
   ],
   "note": "Violated by the code: RobustPowerTransformer stores list(lambda_range) instead of its argument, so clone raises RuntimeError for it and for everything that contains it; DDC does not inherit get_params. Proved for all other estimators at any depth of nesting. clone itself is library code, modelled."
  },
  {
   "property": "C154",
   "status": "partial",
   "theorems": [
    "Robpy.C154_violated",
    "Robpy.C154_shared",
    "Robpy.C154_iterations_partial",
    "Robpy.C154_private_partial"
   ],
   "note": "Violated by the code for max_iterations=0: the default SRegression() is one object shared by all MMRegression objects and is itself the model. Proved for at least one iteration, and for objects with initial estimators of their own."
  },
  {
   "property": "C155",
   "status": "partial",
   "theorems": [
    "Robpy.C155_violated",
    "Robpy.C155_exact",
    "Robpy.C155_initial_partial"
   ],
   "note": "Violated by the code: self.model is set to the initial estimator before the iterations, so after a fit that raises ValueError an unfitted object predicts. Proved for exceptions of the initial S-estimator."
  },
  {
   "property": "C156",
   "status": "proved",
   "theorems": [
    "Robpy.C156_sets",
    "Robpy.C156_result"
   ],
   "note": "Eigenvectors, matrix square root, quantile function and argsort are library calls with a contract (DetContract); the sixth matrix is that of the model of OGK. The six sets are one C-step away from the starting sets; that the loop does not iterate further is C36."
  },
  {
   "property": "C157",
   "status": "partial",
   "theorems": [
    "Robpy.C157_flat_partial",
    "Robpy.C157_lts",
    "Robpy.C157_violated"
   ],
   "note": "violated: C157_lts shows that the fit with FastLTSRegression raises ValueError for every data set and every setting with at least one iteration, C157_violated refutes the full statement on three observations where the iterations themselves would succeed; C157_flat_partial: with one-dimensional predictions the fit on arrays is exactly the fit of C55, C106-C108"
  },
  {
   "property": "C158",
   "status": "proved",
   "theorems": [
    "Robpy.C158_move",
    "Robpy.C158_beyond",
    "Robpy.C158_order"
   ],
   "note": "The quantile 0.975 of the standard normal distribution is a nonnegative number, the chi-square quantities are parameters; drawing itself is not modelled."
  },
  {
   "property": "C159",
   "status": "partial",
   "theorems": [
    "Robpy.C159_general_partial",
    "Robpy.C159_full",
    "Robpy.C159_exact_fit",
    "Robpy.C159_violated"
   ],
   "note": "Violated by the code: C159_full (every data set, as many components as directions), C159_exact_fit (more than half of the orthogonal distances coincide). C159_general_partial: a result if no orthogonal distance of the first step occurs more than (1 - 1/K) (n/2 + 1) times, K the reweighting cutoff of the univariate MCD."
  },
  {
   "property": "C16",
   "status": "partial",
   "theorems": [
    "Robpy.C16_violated",
    "Robpy.C16_finite_iff_partial"
   ],
   "note": "Violated by the code: if some value occurs h or more times the estimates are NaN. Proved: finite iff no value occurs h or more times."
  },
  {
   "property": "C160",
   "status": "partial",
   "theorems": [
    "Robpy.C160_rescaled_partial",
    "Robpy.C160_map_partial",
    "Robpy.C160_violated"
   ],
   "note": "Violated by the code: the tolerance 1e-7 of l1median is a fixed number. Proved with the tolerance in the units of the data."
  },
  {
   "property": "C161",
   "status": "partial",
   "theorems": [
    "Robpy.C161_lts_result_partial",
    "Robpy.C161_lts_after_partial",
    "Robpy.C161_lts_study_partial",
    "Robpy.C161_s_result_partial",
    "Robpy.C161_s_after_partial",
    "Robpy.C161_s_study_partial",
    "Robpy.C161_violated",
    "Robpy.C161_s_violated"
   ],
   "note": "Violated by the code: both classes call np.random.seed on the global generator. Proved: the result does not depend on the generator's state; after a successful fit that state depends on settings and sizes only; from its second round on a simulation study sees one and the same data set."
  },
  {
   "property": "C162",
   "status": "proved",
   "theorems": [
    "Robpy.C162_qn",
    "Robpy.C162_qn_corrected",
    "Robpy.C162_mad",
    "Robpy.C162_mcd",
    "Robpy.C162_tau"
   ],
   "note": "Bounds: delta/2 (Qn, times its corrections), delta/4 (MAD), delta^2/(2h) for the raw variance of UnivariateMCD, delta*sqrt(min(c2^2/16,1/4)/2) (Tau without consistency correction, which divides by a constant)."
  },
  {
   "property": "C163",
   "status": "partial",
   "theorems": [
    "Robpy.C163_mad",
    "Robpy.C163_tau",
    "Robpy.C163_qn_iff_partial",
    "Robpy.C163_qn_positive_partial",
    "Robpy.C163_qn_majority",
    "Robpy.C163_onestep_partial",
    "Robpy.C163_violated",
    "Robpy.C163_onestep_violated"
   ],
   "note": "Violated by the code: Qn is zero for three equally frequent values, OneStepM for any data of the order 1e-13. Proved: Tau and MAD exactly for a majority of ties; Qn exactly if the number of tied pairs reaches C(h,2), never if no value occurs more than (h+1)/2 times; OneStepM (Huber) exactly if the normalised MAD is below min_abs_scale."
  },
  {
   "property": "C164",
   "status": "proved",
   "theorems": [
    "Robpy.C164_row_order",
    "Robpy.C164_defaults"
   ],
   "note": "Exact arithmetic. FastMCD and DetMCD are not covered: FastMCD draws row numbers, DetMCD breaks ties by position."
  },
  {
   "property": "C165",
   "status": "proved",
   "theorems": [
    "Robpy.C165_fit",
    "Robpy.C165_real",
    "Robpy.C165_default"
   ],
   "note": "C165_fit for any arithmetic whose routines for samples do not depend on the order; C165_real: exact arithmetic satisfies this."
  },
  {
   "property": "C166",
   "status": "partial",
   "theorems": [
    "Robpy.C166_partial",
    "Robpy.C166_regression_partial",
    "Robpy.C166_violated",
    "Robpy.C166_violated_louder",
    "Robpy.C166_violated_nested"
   ],
   "note": "Violated: the loggers are shared per class, so a later object (also one constructed inside ROBPCA.fit or outlier_map) changes the level for all; CellMCD does not hand its verbosity to InitialDDCW; the regression loggers have no handler, so nothing below WARNING appears without configured logging."
  },
  {
   "property": "C167",
   "status": "proved",
   "theorems": [
    "Robpy.C167_column_order",
    "Robpy.C167_routine",
    "Robpy.C167_defaults",
    "Robpy.C167_needs_simple"
   ],
   "note": "Exact arithmetic. C167_needs_simple: with equal eigenvalues the result of OGK depends on the eigenvectors the routine chooses."
  },
  {
   "property": "C168",
   "status": "proved",
   "theorems": [
    "Robpy.C168_fit",
    "Robpy.C168_defaults",
    "Robpy.C168_raw",
    "Robpy.ogkReweight_bounds",
    "Robpy.directions_bounded"
   ],
   "note": "C168_fit is the whole fit on contaminated data, the constants are chosen before the outliers, the eigendecompositions and the state of the object; C168_defaults is the raw estimate (p >= 1, one row less needed); C168_raw is one statement for any estimators with bounded projections. Bounds of eigenvalues are stated as bounds of the quadratic form. The ratio of the chi-square quantiles is a parameter, assumed above 1 (beta > 0.5). Exact arithmetic; the classical covariance of the same fit is shown to be invertible as well."
  },
  {
   "property": "C169",
   "status": "partial",
   "theorems": [
    "Robpy.C169_partial",
    "Robpy.C169_two_outliers",
    "Robpy.C169_violated",
    "Robpy.C169_locantore"
   ],
   "note": "Violated by the code: whatever the number of good rows, two outliers suffice (C169_two_outliers): the iteration starts at the mean and stops next to any observation that happens to be there, since a Weiszfeld step from a point at distance d of an observation is at most n*d long. C169_locantore carries this to PCALocantore.fit. Proved: every result is within an explicit distance of the majority, or within (2n+1)*eps of an outlier."
  },
  {
   "property": "C17",
   "status": "proved",
   "theorems": [
    "Robpy.C17_order",
    "Robpy.C17_columns"
   ],
   "note": "medcouple is an arbitrary number"
  },
  {
   "property": "C170",
   "status": "proved",
   "theorems": [
    "Robpy.C170_kendall",
    "Robpy.C170_kendall_scales",
    "Robpy.C170_wrapping",
    "Robpy.C170_wrapping_default",
    "Robpy.qnOf_bounded"
   ],
   "note": "C170_kendall with the default Qn, C170_kendall_scales for any bounded scales. The condition on the signs of the good rows is a positive lower bound of their quadratic form. No lower bound in all directions is claimed for WrappingCovariance. The calculated matrix, not the classical distances of fit."
  },
  {
   "property": "C171",
   "status": "partial",
   "theorems": [
    "Robpy.C171_raw_partial",
    "Robpy.C171_search",
    "Robpy.C171_weights",
    "Robpy.C171_two_outliers",
    "Robpy.C171_violated"
   ],
   "note": "Violated by the code for the default reweighting=True: C171_two_outliers shows for every set of good observations that two outliers carry the reported coefficients beyond any bound, because residuals are compared with the classical standard deviation of all residuals, which the further outlier inflates. C171_search and C171_raw_partial: the estimate before reweighting (and the fit with reweighting=False) is bounded; C171_weights: the same with initial weights."
  },
  {
   "property": "C172",
   "status": "proved",
   "theorems": [
    "Robpy.C172_fit",
    "Robpy.C172_default",
    "Robpy.C172_search",
    "Robpy.C172_search_total"
   ],
   "note": "C172_fit is the whole fit; the constants are chosen before the outliers, the random draws and the order of the rows. C172_default spells out the default alpha and partitioning up to 600 rows. With several parts, one part must itself have few outliers and a clean draw, and the fit is assumed to succeed (C173 shows that it may not). Not covered: correct_covariance=False together with reweighting=True. The chi-square quantiles and the consistency factor are parameters, assumed positive and in order. Exact arithmetic."
  },
  {
   "property": "C173",
   "status": "partial",
   "theorems": [
    "Robpy.C173_partial",
    "Robpy.C173_constant_part",
    "Robpy.C173_violated"
   ],
   "note": "Violated by the code: above 600 rows the data are cut into five parts in the order of the rows; if the rows of the first part are equal (121 of 605 rows), no initial subset of that part has a nonsingular covariance and the fit raises ValueError (C173_constant_part, C173_violated). Proved for at most 600 rows."
  },
  {
   "property": "C174",
   "status": "proved",
   "theorems": [
    "Robpy.C174_fit",
    "Robpy.C174_returns",
    "Robpy.C174_default"
   ],
   "note": "The square root is assumed symmetric, as scipy's principal square root of a symmetric positive semidefinite matrix is. The bounds depend on the good rows, the number of outliers and the settings. Both scales of the standardisation (Qn below 1000 rows, Tau from 1000 rows) are covered."
  },
  {
   "property": "C175",
   "status": "partial",
   "theorems": [
    "Robpy.C175_certified_partial",
    "Robpy.C175_default_partial",
    "Robpy.C175_breaks",
    "Robpy.C175_violated"
   ],
   "note": "Violated by the code: with 34 good observations and 30 outliers near the origin on a line of slope M, and all draws clean, the fit with the default parameters reports slope M (C175_breaks, for every M >= 1; C175_violated). Proved: the coefficients are bounded by a function of the reported scale, of the good observations and of the parameters, whatever the outliers and the draws."
  },
  {
   "property": "C176",
   "status": "proved",
   "theorems": [
    "Robpy.C176_tau",
    "Robpy.C176_onestep",
    "Robpy.C176_mcd",
    "Robpy.C176_wrapping"
   ],
   "note": "Complements C10, C11, C12 (raw estimates) for the reported locations and scales. That Tau reports no location when the MAD is 0 is C70."
  },
  {
   "property": "C177",
   "status": "partial",
   "theorems": [
    "Robpy.C177_search",
    "Robpy.C177_raw_partial",
    "Robpy.C177_reweighted_partial",
    "Robpy.C177_one_outlier_partial",
    "Robpy.C177_violated"
   ],
   "note": "Violated by the code for the default reweighting=True (C177_violated: six observations on a line and two outliers). Proved: the search itself, the fit without reweighting, and the fit with reweighting when no outlier passes the cutoff, e.g. for a single outlier."
  },
  {
   "property": "C178",
   "status": "proved",
   "theorems": [
    "Robpy.C178_bounded",
    "Robpy.C178_sharp"
   ],
   "note": "The medcouple (statsmodels) is a parameter with |mc| <= 1; C178_sharp shows that the admissible number of outliers cannot be raised."
  },
  {
   "property": "C179",
   "status": "proved",
   "theorems": [
    "Robpy.C179_standardised"
   ],
   "note": "All estimators of the package and all four combinations of flags. NaN estimates are excluded by hypothesis (see the comment of UniEst.column)."
  },
  {
   "property": "C18",
   "status": "proved",
   "theorems": [
    "Robpy.C18_affine",
    "Robpy.C18_reflection"
   ],
   "note": "medcouple of aX+b equal, of -X opposite, is the contract of the external routine"
  },
  {
   "property": "C180",
   "status": "partial",
   "theorems": [
    "Robpy.C180_partial",
    "Robpy.C180_others_partial",
    "Robpy.C180_violated"
   ],
   "note": "Violated by the code for OneStepM (C180_violated: HuberOneStepM, three values, unit factor 1e-13). Proved in full for UnivariateMCD, Tau, Qn and OneStepWrapping, and for OneStepM when the MAD stays above min_abs_scale."
  },
  {
   "property": "C181",
   "status": "proved",
   "theorems": [
    "Robpy.C181_separates",
    "Robpy.C181_any_points"
   ],
   "note": "That with a seed only one direction is used, so that only one pair of rows is ever drawn, is C61. For numbers of points other than 2 the last singular vector is assumed to have length 1 (contract of numpy's svd)."
  },
  {
   "property": "C182",
   "status": "proved",
   "theorems": [
    "Robpy.C182_aligned",
    "Robpy.C182_zoom"
   ],
   "note": "What is passed to seaborn is modelled, not the drawing. Slices with negative bounds are covered by C182_aligned."
  },
  {
   "property": "C183",
   "status": "partial",
   "theorems": [
    "Robpy.C183_colours_partial",
    "Robpy.C183_neutral_partial",
    "Robpy.C183_other_cutoff",
    "Robpy.C183_violated"
   ],
   "note": "Violated by the code for every cutoff other than 2.5 (C183_other_cutoff); the default cutoff is sqrt(chi2.ppf(0.99, 1)), about 2.576. The colours are exact (matplotlib rounds them to a table of 256 entries)."
  },
  {
   "property": "C184",
   "status": "partial",
   "theorems": [
    "Robpy.C184_cmap_partial",
    "Robpy.C184_iff_partial",
    "Robpy.C184_empty_zoom",
    "Robpy.C184_violated"
   ],
   "note": "Violated by the code for vmax_clip below 2.5 (C184_violated: 2) and for zooms to no rows (C184_empty_zoom). The contract of matplotlib's LinearSegmentedColormap (anchors increasing from 0 to 1, ValueError otherwise) is part of the model."
  },
  {
   "property": "C185",
   "status": "proved",
   "theorems": [
    "Robpy.C185_fit",
    "Robpy.C185_predict",
    "Robpy.C185_impute",
    "Robpy.C185_real"
   ],
   "note": "For every arithmetic in which sums may be reordered, the mean of a row is order-free, and correlation, Mahalanobis distance and the scale of a difference are symmetric; C185_real shows that exact arithmetic is one. Which exception is raised when two columns would raise different ones does depend on the order, so the theorem about fit is about fits that return."
  },
  {
   "property": "C186",
   "status": "proved",
   "theorems": [
    "Robpy.C186_far"
   ],
   "note": "The bound exists for every configuration; it is not computed. frameFar_fit and frameFar_flagged (Props/DDCFarRun) are a run that meets the hypotheses for every bound. The row verdicts are not claimed: the mean of chi2.cdf over a row does change with its far cells."
  },
  {
   "property": "C187",
   "status": "partial",
   "theorems": [
    "Robpy.C187_flagged_partial",
    "Robpy.C187_masked",
    "Robpy.C187_violated"
   ],
   "note": "Violated by the code: with the predictor missing in four of ten rows, four far cells out of ten are not flagged however far they are, and two clean cells are flagged instead (C187_masked, cutoffs 2 to 9). It holds when the far cells are also fewer than half of the cells with a prediction other than 0 (C187_flagged_partial)."
  },
  {
   "property": "C188",
   "status": "partial",
   "theorems": [
    "Robpy.C188_order_partial",
    "Robpy.C188_violated"
   ],
   "note": "Violated by the code: for six points symmetric about the origin, no three on a line, and subsets of five rows, some order of the rows gives another location (C188_violated). It holds when no tie decides which rows are selected (Spec.determinedCuts: half of the rows by norm, half by each of the six starts, h rows by each starting half). Props/DetOrderRun shows a data set that meets this and a run that returns."
  },
  {
   "property": "C189",
   "status": "proved",
   "theorems": [
    "Robpy.C189_reflection"
   ],
   "note": "For quantile functions with ppf(1-u) = c - ppf(u), as norm.ppf has with c = 0."
  },
  {
   "property": "C19",
   "status": "proved",
   "theorems": [
    "Robpy.C19_round_trip",
    "Robpy.C19_own_column"
   ],
   "note": "broadcasting of a single column against several is excluded"
  },
  {
   "property": "C190",
   "status": "partial",
   "theorems": [
    "Robpy.C190_step_partial",
    "Robpy.C190_search_partial",
    "Robpy.C190_default_step_partial",
    "Robpy.C190_default_partial",
    "Robpy.C190_ends",
    "Robpy.C190_violated"
   ],
   "note": "Violated by the code: with the defaults the search never ends on the targets 1, 1, 1, 11 (C103_never) and ends on 0, 0, 0, 10 (C190_ends). It holds for samples in general position with relative_tolerance = 0 and b at most half of the largest value of the score function (C190_search_partial); each i-step is equivariant for every tolerance (C190_step_partial). With the default score function, b and number of scale iterations the same holds if exact fits and as many rows as there are columns make up at most a tenth of the rows (C190_default_step_partial, C190_default_partial). Missing: the default relative_tolerance, which compares with the size of the coefficients."
  },
  {
   "property": "C191",
   "status": "proved",
   "theorems": [
    "Robpy.C191_sign"
   ],
   "note": "For every setting, also when rows lose all weight: the shortest solution changes sign too."
  },
  {
   "property": "C192",
   "status": "proved",
   "theorems": [
    "Robpy.C192_order",
    "Robpy.corresponding_draws"
   ],
   "note": "Equality of the whole outcome, including errors and searches that do not end, without a condition on ties. For every reordering there are draws that select the same observations (corresponding_draws)."
  },
  {
   "property": "C193",
   "status": "partial",
   "theorems": [
    "Robpy.C193_step_partial",
    "Robpy.C193_search_partial",
    "Robpy.C193_outcomes",
    "Robpy.C193_violated"
   ],
   "note": "Violated by the code: scale_tolerance is an absolute number, so with the defaults the targets 0, 2 get the scale of two iterations and the targets 0, 2e-10 the scale of one iteration (C193_outcomes). It holds with scale_tolerance in the same units for every run that visits no tiny coefficients and no exact fits, whose residuals are replaced by an absolute number as well (C193_search_partial)."
  },
  {
   "property": "C194",
   "status": "partial",
   "theorems": [
    "Robpy.C194_order_partial",
    "Robpy.C194_violated"
   ],
   "note": "Violated by the code for tied residuals: the targets 1, -1, 0 of three equal rows give two opposite nonzero intercepts depending on which row comes first (C194_violated, for the same drawn observations). It holds for every setting, with initial weights and with reweighting, when the fits to p + 1 and to h rows leave no tie at the h-th absolute residual (C194_order_partial)."
  },
  {
   "property": "C195",
   "status": "partial",
   "theorems": [
    "Robpy.C195_some_partial",
    "Robpy.C195_no_c_steps",
    "Robpy.C195_violated"
   ],
   "note": "Violated by the code: with n_initial_c_steps=0 the index array of a draw (p + 1 rows) is compared with that of a C-step (h rows), for which numpy raises ValueError; this happens for every sample in general position, every draw and any number of parts as soon as h > p + 1 (C195_no_c_steps). It holds for one or more C-steps (C195_some_partial)."
  },
  {
   "property": "C196",
   "status": "partial",
   "theorems": [
    "Robpy.C196_order_partial",
    "Robpy.corresponding_starts",
    "Robpy.C196_violated"
   ],
   "note": "Violated by the code for tied distances: np.argsort decides ties by position, and for a sample of six rows in general position that a half turn maps to itself the location differs from that of the turned sample, which is a reordering (C196_violated, for the same drawn observations). It holds when neither an initial subset nor a set of h rows has a tie at the h-th distance (C196_order_partial); draws that pick the same observations exist for every reordering (corresponding_starts). Samples split into several parts are not covered: there the parts themselves follow the row order."
  },
  {
   "property": "C197",
   "status": "proved",
   "theorems": [
    "Robpy.C197_order",
    "Robpy.C197_sregression"
   ],
   "note": "For every rho, tolerance and number of iterations, errors included; with SRegression through C192, without any condition on ties."
  },
  {
   "property": "C198",
   "status": "partial",
   "theorems": [
    "Robpy.C198_rotation_partial",
    "Robpy.C198_violated"
   ],
   "note": "Violated by the code for shifts of the features: the square roots of the weights multiply the features but not the constant column that LinearRegression adds, so the fit depends on the origin (C198_violated, the same cause as C55 and C107). Rotations, reflections and reorderings of the columns are followed for every sample (C198_rotation_partial)."
  },
  {
   "property": "C199",
   "status": "proved",
   "theorems": [
    "Robpy.C199_locantore",
    "Robpy.C199_outlyingness",
    "Robpy.C199_robpca"
   ],
   "note": "The loadings of sklearn's first PCA, the eigenvectors and FastMCD on the final coordinates are parameters; the loadings are the same for both orders and FastMCD is assumed to agree on the coordinates that occur (for ties see C196)."
  },
  {
   "property": "C20",
   "status": "proved",
   "theorems": [
    "Robpy.C20_round_trip",
    "Robpy.C20_error"
   ],
   "note": ""
  },
  {
   "property": "C200",
   "status": "partial",
   "theorems": [
    "Robpy.C200_iterates_partial",
    "Robpy.C200_columns_partial",
    "Robpy.C200_violated"
   ],
   "note": "Violated by the code: the loop stops when the sum of the absolute changes of the coordinates is below 1e-7, and this sum depends on the axes, so that the loop can make another number of passes for the rotated data (C200_violated, three observations and the tolerance of the code). Every pass follows the rotation (C200_iterates_partial); reorderings and sign changes of the columns are followed exactly (C200_columns_partial)."
  },
  {
   "property": "C201",
   "status": "proved",
   "theorems": [
    "Robpy.C201_columns",
    "Robpy.C201_rotation"
   ],
   "note": "For every choice of eigenvectors that meets the contract of eigh. The condition on the eigenvalues is part of the property; without it the routine may return another basis."
  },
  {
   "property": "C202",
   "status": "partial",
   "theorems": [
    "Robpy.C202_order_partial",
    "Robpy.C202_violated"
   ],
   "note": "Violated by the code: a column 0, 1, 2, ... is dropped as row numbers only while the rows are in that order, so sorting the rows differently keeps it (C202_violated). Proved for every order of the columns, and for every order of the rows when no column counts the rows in either order, errors and reported labels included."
  },
  {
   "property": "C203",
   "status": "proved",
   "theorems": [
    "Robpy.C203_fit",
    "Robpy.C203_steps",
    "Robpy.C203_alpha_one",
    "Robpy.C203_tie"
   ],
   "note": "The start by InitialDDCW and the column scaler are parameters, assumed to give the same estimate for both orders (for the start see C204). The condition on ties is part of the property; C203_tie shows that it is needed."
  },
  {
   "property": "C204",
   "status": "proved",
   "theorems": [
    "Robpy.C204_fit",
    "Robpy.C204_cellmcd",
    "Robpy.C204_estimator",
    "Robpy.C204_tie"
   ],
   "note": "eigh and argsort are parameters; argsort only has to sort with NaN at the end. The condition on ties is part of the property; C204_tie shows that it is needed whatever the sorting routine. OneStepWrapping meets the hypothesis on the estimator (C204_estimator). C204_cellmcd removes the hypothesis of C203 about the start."
  },
  {
   "property": "C205",
   "status": "proved",
   "theorems": [
    "Robpy.C205_rotation",
    "Robpy.C205_fastMCD",
    "Robpy.C205_loadings"
   ],
   "note": "sklearn's PCA is a parameter: the loadings for the moved data are P L O^T with O orthogonal, which C205_loadings shows for whatever orthogonal loadings it returns when there are at least as many rows as columns. Different eigenvalues are a hypothesis of the property, since eigenvectors of equal eigenvalues are arbitrary. The hypothesis on the final MCD is needed only when final_MCD is on, and C205_fastMCD shows that FastMCD with its defaults meets it for the same random draws."
  },
  {
   "property": "C206",
   "status": "proved",
   "theorems": [
    "Robpy.C206_similarity",
    "Robpy.C206_map",
    "Robpy.C206_fastMCD"
   ],
   "note": "Exact arithmetic; np.linalg.matrix_rank is the exact rank. The loadings of the first PCA are a parameter as in C205 (C205_loadings). C206_fastMCD shows that FastMCD with its defaults meets the hypothesis on the final MCD for the same random draws. C206_map applies to any two fits related as in C206_similarity."
  },
  {
   "property": "C207",
   "status": "partial",
   "theorems": [
    "Robpy.C207_violated",
    "Robpy.C207_update_partial",
    "Robpy.C207_steps_partial"
   ],
   "note": "The code violates it: columns with equally many clean cells (all of them, in data without missing cells) are updated in the order in which they stand, so of two cells of a row that are unusual only together the one in the first column is flagged (C207_violated, one C-step, ten rows). Proved: one update of the flags follows the columns if their numbers of clean cells differ, and so do all the C-steps (flags, location, covariance, objective, or the same error) if this holds at the start of every C-step that is made."
  },
  {
   "property": "C208",
   "status": "proved",
   "theorems": [
    "Robpy.C208_nearest",
    "Robpy.C208_unique",
    "Robpy.C208_rotation",
    "Robpy.C208_choice"
   ],
   "note": "Exact arithmetic; eigh is a parameter with its contract (orthonormal eigenvectors that decompose the symmetrised argument), argsort any permutation."
  },
  {
   "property": "C21",
   "status": "proved",
   "theorems": [
    "Robpy.C21_formulas",
    "Robpy.C21_transform_order"
   ],
   "note": ""
  },
  {
   "property": "C22",
   "status": "partial",
   "theorems": [
    "Robpy.C22_boxcox",
    "Robpy.C22_boxcox_data",
    "Robpy.C22_yeojohnson",
    "Robpy.C22_yeojohnson_data",
    "Robpy.C22_standardized_quartiles",
    "Robpy.C22_yeojohnson_standardized",
    "Robpy.C22_violated",
    "Robpy.C22_negative_changepoint_slope"
   ],
   "note": "Proved for Box-Cox and for Yeo-Johnson with change points on the right side of zero, which standardised data always gives. Violated by the code for unstandardised data lying below zero."
  },
  {
   "property": "C23",
   "status": "partial",
   "theorems": [
    "Robpy.C23_violated",
    "Robpy.C23_violated_infinite",
    "Robpy.C23_inside_partial",
    "Robpy.C23_total_partial"
   ],
   "note": "Violated by the code: values beyond the bound are moved to 0.95*bound (order reversed), and the bound itself gives inf."
  },
  {
   "property": "C24",
   "status": "partial",
   "theorems": [
    "Robpy.C24_violated",
    "Robpy.C24_explicit_partial"
   ],
   "note": "Violated by the code for method='auto' (the choice is stored in self.method). Proved for explicit methods."
  },
  {
   "property": "C25",
   "status": "partial",
   "theorems": [
    "Robpy.C25_violated",
    "Robpy.C25_partial"
   ],
   "note": "Violated by the code: list - int raises TypeError instead of widening. Proved: exact success condition."
  },
  {
   "property": "C26",
   "status": "proved",
   "theorems": [
    "Robpy.C26_odd",
    "Robpy.C26_psi_bounded",
    "Robpy.C26_side",
    "Robpy.C26_cell"
   ],
   "note": ""
  },
  {
   "property": "C27",
   "status": "proved",
   "theorems": [
    "Robpy.C27_rescale",
    "Robpy.C27_constant"
   ],
   "note": ""
  },
  {
   "property": "C28",
   "status": "proved",
   "theorems": [
    "Robpy.C28_only_removes",
    "Robpy.C28_fresh_succeeds",
    "Robpy.C28_errors"
   ],
   "note": "labels are unique"
  },
  {
   "property": "C29",
   "status": "partial",
   "theorems": [
    "Robpy.C29_violated",
    "Robpy.C29_rows_first_partial",
    "Robpy.C29_columns_first_partial"
   ],
   "note": "Violated by the code for the axis cleaned first. Proved for the axis cleaned last."
  },
  {
   "property": "C30",
   "status": "partial",
   "theorems": [
    "Robpy.C30_violated",
    "Robpy.C30_partial"
   ],
   "note": "Violated by the code: lists of an earlier transform are reused."
  },
  {
   "property": "C31",
   "status": "proved",
   "theorems": [
    "Robpy.C31_affine_invariant",
    "Robpy.C31_distance",
    "Robpy.C31_triangle"
   ],
   "note": "exact arithmetic"
  },
  {
   "property": "C32",
   "status": "partial",
   "theorems": [
    "Robpy.C32_violated",
    "Robpy.C32_inverse_partial"
   ],
   "note": "Violated by the code for the full index list in another order; proved for every proper index list and for the ordered full list."
  },
  {
   "property": "C33",
   "status": "proved",
   "theorems": [
    "Robpy.C33_bound",
    "Robpy.C33_unchanged",
    "Robpy.C33_idempotent"
   ],
   "note": "eigh is any function meeting its contract"
  },
  {
   "property": "C34",
   "status": "proved",
   "theorems": [
    "Robpy.C34_correlation",
    "Robpy.C34_rescale"
   ],
   "note": ""
  },
  {
   "property": "C35",
   "status": "proved",
   "theorems": [
    "Robpy.C35_cstep",
    "Robpy.C35_chain",
    "Robpy.C35_smallest"
   ],
   "note": "any argsort; p = 1 raises LinAlgError"
  },
  {
   "property": "C36",
   "status": "partial",
   "theorems": [
    "Robpy.C36_violated",
    "Robpy.C36_no_steps",
    "Robpy.C36_partial"
   ],
   "note": "Violated by the code: the stopping test has the wrong sign, the loop stops in its first pass. Proved: converged if n_initial_c_steps > 2^n."
  },
  {
   "property": "C37",
   "status": "partial",
   "theorems": [
    "Robpy.C37_violated",
    "Robpy.C37_default_partitions",
    "Robpy.C37_size",
    "Robpy.C37_partial"
   ],
   "note": "Violated by the code: an integer alpha raises ValueError as soon as the data is partitioned (always for n > 600)."
  },
  {
   "property": "C38",
   "status": "proved",
   "theorems": [
    "Robpy.C38_nBest",
    "Robpy.C38_best",
    "Robpy.C38_overall"
   ],
   "note": ""
  },
  {
   "property": "C39",
   "status": "proved",
   "theorems": [
    "Robpy.C39_fastMCD",
    "Robpy.C39_detMCD"
   ],
   "note": "positive tolerance, at least one initial C-step; DetMCD relative to its initial index sets"
  },
  {
   "property": "C40",
   "status": "proved",
   "theorems": [
    "Robpy.C40_initial_subset"
   ],
   "note": "p = 1 raises LinAlgError"
  },
  {
   "property": "C41",
   "status": "proved",
   "theorems": [
    "Robpy.C41_kendall",
    "Robpy.C41_returns",
    "Robpy.C41_constant"
   ],
   "note": "the scale estimates are a parameter; kendalltau is tau-b by contract"
  },
  {
   "property": "C42",
   "status": "proved",
   "theorems": [
    "Robpy.C42_posSemidef",
    "Robpy.C42_posDef"
   ],
   "note": "eigh is any function meeting its contract"
  },
  {
   "property": "C43",
   "status": "partial",
   "theorems": [
    "Robpy.C43_violated",
    "Robpy.C43_invalid_partial",
    "Robpy.C43_covariance_partial",
    "Robpy.C43_refit_partial"
   ],
   "note": "Violated by the code: location_ is overwritten before the computation that fails. Proved: rejected data changes nothing, a failing computation leaves covariance_ and the distances, a successful fit does not depend on the history."
  },
  {
   "property": "C44",
   "status": "partial",
   "theorems": [
    "Robpy.C44_violated",
    "Robpy.C44_flags_partial",
    "Robpy.C44_result_partial"
   ],
   "note": "Violated by the code: with a quantile whose cutoff exceeds 3 a cell can pass the check, be cleared afterwards, and be marked as clean although missing. Proved for cutoffs up to 3, for every state of the iteration and for the result."
  },
  {
   "property": "C45",
   "status": "partial",
   "theorems": [
    "Robpy.C45_violated",
    "Robpy.C45_consistent_partial",
    "Robpy.C45_objective_partial"
   ],
   "note": "Violated by the code: if the first C-step increases the objective, the initial location and covariance are returned with the flags of that step. Proved: this needs an initial covariance below the eigenvalue bound; otherwise the result is the state of the last C-step with the smallest objective; in every case the objective is not larger than at the start."
  },
  {
   "property": "C46",
   "status": "partial",
   "theorems": [
    "Robpy.C46_violated",
    "Robpy.C46_conditional_partial",
    "Robpy.C46_all_missing_partial"
   ],
   "note": "Violated by the code: for a row without a clean cell the diagonal of the inverse covariance is reported as the variance. Proved for all other rows."
  },
  {
   "property": "C47",
   "status": "partial",
   "theorems": [
    "Robpy.C47_violated",
    "Robpy.C47_exceeded",
    "Robpy.C47_capped",
    "Robpy.C47_cap_partial"
   ],
   "note": "Violated by the code for alpha above 0.75: the cap always takes a quarter of the rows. Proved for alpha at most 0.75 and every output of DDC. C47_violated uses a constant scale estimator; C47_exceeded shows the same for every estimator with moderate values on the two columns."
  },
  {
   "property": "C48",
   "status": "proved",
   "theorems": [
    "Robpy.C48_objective",
    "Robpy.C48_nan"
   ],
   "note": ""
  },
  {
   "property": "C49",
   "status": "proved",
   "theorems": [
    "Robpy.C49_cStep",
    "Robpy.C49_total"
   ],
   "note": ""
  },
  {
   "property": "C50",
   "status": "proved",
   "theorems": [
    "Robpy.C50_terminates",
    "Robpy.C50_loss",
    "Robpy.C50_negative"
   ],
   "note": "with a negative tolerance the loop never ends"
  },
  {
   "property": "C51",
   "status": "proved",
   "theorems": [
    "Robpy.C51_each_start",
    "Robpy.C51_best"
   ],
   "note": ""
  },
  {
   "property": "C52",
   "status": "proved",
   "theorems": [
    "Robpy.C52_subset_size",
    "Robpy.C52_alpha"
   ],
   "note": ""
  },
  {
   "property": "C53",
   "status": "partial",
   "theorems": [
    "Robpy.C53_violated",
    "Robpy.C53_reweighting_partial",
    "Robpy.C53_fit_partial"
   ],
   "note": "Violated by the code: if the raw model fits all observations exactly, none is kept and ValueError is raised. Proved: this is the only such case, and how many are kept otherwise."
  },
  {
   "property": "C54",
   "status": "partial",
   "theorems": [
    "Robpy.C54_violated",
    "Robpy.C54_alpha",
    "Robpy.C54_one",
    "Robpy.C54_continuous_partial"
   ],
   "note": "Violated by the code: for few rows per column the factor has a pole. Proved: the errors, the value 1 at alpha=1 for all n and p, and continuity with values of at least 1 for n >= 3 (one column) or n >= 3 p^2 (2 to 10^6 columns)."
  },
  {
   "property": "C55",
   "status": "partial",
   "theorems": [
    "Robpy.C55_violated",
    "Robpy.C55_minimised_partial",
    "Robpy.C55_equal_partial",
    "Robpy.C55_huber_partial"
   ],
   "note": "Violated by the code: the constant column is not multiplied by the root of the weights. Proved: what is minimised instead; with equal weights w the intercept is sqrt(w) times the right one; unit weights give least squares."
  },
  {
   "property": "C56",
   "status": "partial",
   "theorems": [
    "Robpy.C56_violated",
    "Robpy.C56_no_solution",
    "Robpy.C56_shrinks",
    "Robpy.C56_iterate",
    "Robpy.C56_fixed_partial",
    "Robpy.C56_converges_partial"
   ],
   "note": "Violated by the code: with the default rho and b the equation has no solution and every update shrinks the scale. Proved: the fixed points are solutions, and for rho and b with a solution the iteration from above converges to one."
  },
  {
   "property": "C57",
   "status": "partial",
   "theorems": [
    "Robpy.C57_violated",
    "Robpy.C57_regression_violated",
    "Robpy.C57_scale_shift_partial",
    "Robpy.C57_regression_partial"
   ],
   "note": "Violated by the code: the tolerance is absolute, and starts with too few distinct rows have several least-squares fits. Proved: equivariance if the tolerance is rescaled and, for X*v, the rows are in general position."
  },
  {
   "property": "C58",
   "status": "partial",
   "theorems": [
    "Robpy.C58_violated",
    "Robpy.C58_pythagoras_partial",
    "Robpy.C58_subspace_partial",
    "Robpy.C58_project_centered_partial",
    "Robpy.C58_project_twice_partial"
   ],
   "note": "Violated by the code: project does not add the centre back. Proved: what project does return, and the distance decomposition for orthonormal components."
  },
  {
   "property": "C59",
   "status": "partial",
   "theorems": [
    "Robpy.C59_violated",
    "Robpy.C59_least_partial",
    "Robpy.C59_nonneg_partial",
    "Robpy.C59_fallback"
   ],
   "note": "Violated by the code: if no number of components reaches the proportion, one component is kept. Proved: the least number whenever one reaches it."
  },
  {
   "property": "C60",
   "status": "partial",
   "theorems": [
    "Robpy.C60_violated",
    "Robpy.C60_location"
   ],
   "note": "Violated by the code: the centre is the mean of all observations. Proved: exactly that."
  },
  {
   "property": "C61",
   "status": "partial",
   "theorems": [
    "Robpy.C61_violated",
    "Robpy.C61_seeded",
    "Robpy.C61_unseeded_partial",
    "Robpy.C61_value"
   ],
   "note": "Violated by the code: with a seed every direction is drawn from a new generator with the same seed, so all directions are equal. Proved: the number of directions then has no effect; without a seed the result is the maximum over n_dir directions, each from its own generator."
  },
  {
   "property": "C62",
   "status": "proved",
   "theorems": [
    "Robpy.C62_fixed_directions",
    "Robpy.C62_invariant",
    "Robpy.C62_nonneg"
   ],
   "note": "also invariant under rotations when two points are drawn per direction"
  },
  {
   "property": "C63",
   "status": "partial",
   "theorems": [
    "Robpy.C63_violated",
    "Robpy.C63_never",
    "Robpy.C63_hull_partial",
    "Robpy.C63_terminates_partial",
    "Robpy.C63_iff"
   ],
   "note": "Violated by the code: it never returns if an iterate is an observation, e.g. the mean of -1, 0, 1. Proved: the hull property of every result, termination if no iterate is an observation, and exactly when it returns."
  },
  {
   "property": "C64",
   "status": "proved",
   "theorems": [
    "Robpy.C64_descent",
    "Robpy.C64_monotone"
   ],
   "note": ""
  },
  {
   "property": "C65",
   "status": "proved",
   "theorems": [
    "Robpy.C65_predict_agrees_with_fit",
    "Robpy.C65_predict_no_effect"
   ],
   "note": "For every arithmetic, including IEEE."
  },
  {
   "property": "C66",
   "status": "proved",
   "theorems": [
    "Robpy.C66_impute",
    "Robpy.impute_no_effect"
   ],
   "note": "For every arithmetic, including IEEE."
  },
  {
   "property": "C67",
   "status": "partial",
   "theorems": [
    "Robpy.C67_violated",
    "Robpy.C67_computed",
    "Robpy.C67_default_partial"
   ],
   "note": "Violated by the code: the weights are divided by the sum over the variables with absolute correlation at least 0.5, whatever min_correlation. Proved: what is computed, and the claim for min_correlation = 0.5."
  },
  {
   "property": "C68",
   "status": "partial",
   "theorems": [
    "Robpy.C68_violated",
    "Robpy.C68_raises_partial"
   ],
   "note": "Violated by the code: AttributeError instead of the documented ValueError. Proved: an error on every history without a completed fit."
  },
  {
   "property": "C69",
   "status": "proved",
   "theorems": [
    "Robpy.C69_one_handler",
    "Robpy.C69_history"
   ],
   "note": ""
  },
  {
   "property": "C70",
   "status": "partial",
   "theorems": [
    "Robpy.C70_violated",
    "Robpy.C70_finite_iff_partial"
   ],
   "note": "Violated by the code: zero MAD gives NaN. Proved: NaN exactly for empty samples and zero MAD."
  },
  {
   "property": "C71",
   "status": "proved",
   "theorems": [
    "Robpy.C71_hull",
    "Robpy.C71_affine"
   ],
   "note": "consistency factor assumed >= 1 for the hull"
  },
  {
   "property": "C72",
   "status": "partial",
   "theorems": [
    "Robpy.C72_violated",
    "Robpy.C72_partial"
   ],
   "note": "Violated by the code: a failing fit leaves a mixture of new values and defaults."
  },
  {
   "property": "C73",
   "status": "partial",
   "theorems": [
    "Robpy.C73_violated",
    "Robpy.C73_partial"
   ],
   "note": "Violated by the code: results are truncated to integers."
  },
  {
   "property": "C74",
   "status": "proved",
   "theorems": [
    "Robpy.C74_kept_columns"
   ],
   "note": "labels are unique"
  },
  {
   "property": "C75",
   "status": "proved",
   "theorems": [
    "Robpy.C75_fit_then_transform"
   ],
   "note": "fitting routines are parameters labelled with their family"
  },
  {
   "property": "C76",
   "status": "proved",
   "theorems": [
    "Robpy.C76_loop_ends"
   ],
   "note": "starts that come from a C-step (all starts of the code for n_initial_c_steps >= 1)"
  },
  {
   "property": "C77",
   "status": "proved",
   "theorems": [
    "Robpy.C77_classical",
    "Robpy.C77_only",
    "Robpy.C77_det"
   ],
   "note": ""
  },
  {
   "property": "C78",
   "status": "proved",
   "theorems": [
    "Robpy.C78_parts",
    "Robpy.C78_zero"
   ],
   "note": ""
  },
  {
   "property": "C79",
   "status": "proved",
   "theorems": [
    "Robpy.C79_correction",
    "Robpy.C79_reweighted",
    "Robpy.C79_raw",
    "Robpy.C79_half_kept"
   ],
   "note": "chi-square quantiles are parameters"
  },
  {
   "property": "C80",
   "status": "partial",
   "theorems": [
    "Robpy.C80_violated",
    "Robpy.C80_too_few",
    "Robpy.C80_partial"
   ],
   "note": "Violated by the code: with fewer initial subsets than partitions no subset is drawn and IndexError is raised. Proved for at least as many initial subsets as partitions."
  },
  {
   "property": "C81",
   "status": "partial",
   "theorems": [
    "Robpy.C81_violated",
    "Robpy.C81_single_column",
    "Robpy.C81_iff_partial"
   ],
   "note": "Violated by the code: a single column always raises. Proved: exactly when fit succeeds, in exact arithmetic."
  },
  {
   "property": "C82",
   "status": "partial",
   "theorems": [
    "Robpy.C82_violated",
    "Robpy.C82_mean"
   ],
   "note": "Violated by the code: the location is the plain mean. No positive part is proved; C82_mean says what is reported."
  },
  {
   "property": "C83",
   "status": "partial",
   "theorems": [
    "Robpy.C83_violated",
    "Robpy.C83_wrapping_partial"
   ],
   "note": "Violated by the code for FastMCD. Proved for WrappingCovariance. Nothing is proved for OGK."
  },
  {
   "property": "C84",
   "status": "proved",
   "theorems": [
    "Robpy.C84_raw",
    "Robpy.C84_ogk"
   ],
   "note": "positive factors"
  },
  {
   "property": "C85",
   "status": "proved",
   "theorems": [
    "Robpy.C85_increasing"
   ],
   "note": ""
  },
  {
   "property": "C86",
   "status": "proved",
   "theorems": [
    "Robpy.C86_wrapping",
    "Robpy.C86_entries"
   ],
   "note": ""
  },
  {
   "property": "C87",
   "status": "proved",
   "theorems": [
    "Robpy.C87_reweighted"
   ],
   "note": "relative to the raw estimates (C42, C84)"
  },
  {
   "property": "C88",
   "status": "proved",
   "theorems": [
    "Robpy.C88_distances"
   ],
   "note": "squared distances"
  },
  {
   "property": "C89",
   "status": "partial",
   "theorems": [
    "Robpy.C89_violated",
    "Robpy.C89_classical_partial"
   ],
   "note": "Violated by the code: the distances are measured from the robust location. Proved: they use the classical covariance and location_, so the claim holds for estimators reporting the mean."
  },
  {
   "property": "C90",
   "status": "proved",
   "theorems": [
    "Robpy.C90_equivariant",
    "Robpy.C90_shift",
    "Robpy.C90_perm"
   ],
   "note": ""
  },
  {
   "property": "C91",
   "status": "partial",
   "theorems": [
    "Robpy.C91_violated",
    "Robpy.C91_iff_partial",
    "Robpy.C91_equal_rows"
   ],
   "note": "Violated by the code: MAD 0 gives NaN or inf. Proved: exactly when the value is a number."
  },
  {
   "property": "C92",
   "status": "proved",
   "theorems": [
    "Robpy.C92_robpca",
    "Robpy.C92_locantore"
   ],
   "note": ""
  },
  {
   "property": "C93",
   "status": "partial",
   "theorems": [
    "Robpy.C93_violated",
    "Robpy.C93_locantore_partial",
    "Robpy.C93_robpca_partial"
   ],
   "note": "Violated by ROBPCA: the number of components is cut to a rank after the explained variances are stored. Proved for PCALocantore; for ROBPCA the relations which do hold."
  },
  {
   "property": "C94",
   "status": "partial",
   "theorems": [
    "Robpy.C94_violated",
    "Robpy.C94_locantore_partial",
    "Robpy.C94_robpca_partial"
   ],
   "note": "Violated by the code: fit overwrites n_components=None. Proved: with a given number PCALocantore can be refitted, and nothing but n_components is read."
  },
  {
   "property": "C95",
   "status": "partial",
   "theorems": [
    "Robpy.C95_violated",
    "Robpy.C95_robpca_partial"
   ],
   "note": "Violated by PCALocantore: the components are sorted by eigenvalue, the variances are MADs of the scores. Proved for ROBPCA."
  },
  {
   "property": "C96",
   "status": "proved",
   "theorems": [
    "Robpy.C96_locantore",
    "Robpy.C96_robpca"
   ],
   "note": ""
  },
  {
   "property": "C97",
   "status": "proved",
   "theorems": [
    "Robpy.C97_variances",
    "Robpy.C97_locantore"
   ],
   "note": "The loadings of sklearn's PCA inside ROBPCA are assumed orthonormal with the centred data in their span."
  },
  {
   "property": "C98",
   "status": "proved",
   "theorems": [
    "Robpy.C98_least_squares"
   ],
   "note": ""
  },
  {
   "property": "C99",
   "status": "proved",
   "theorems": [
    "Robpy.C99_search_outcome"
   ],
   "note": ""
  }
 ]
}