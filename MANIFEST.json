{
 "claims": [
  {
   "property": "C01",
   "status": "proved",
   "theorems": [
    "Verif.Props.C01_angmod_unique",
    "Verif.Props.C01_angmod_total",
    "Verif.Props.C01_angmod_idempotent",
    "Verif.Props.C01_angmod_periodic",
    "Verif.Props.C01_angmod_error"
   ],
   "note": "Full, over ℝ; float rounding of the final `+ bound_min` is not modelled."
  },
  {
   "property": "C02",
   "status": "proved",
   "theorems": [
    "Verif.Props.C02_rad2data_data2rad",
    "Verif.Props.C02_data2rad_rad2data",
    "Verif.Props.C02_rad2data_none",
    "Verif.Props.C02_data2rad_linear",
    "Verif.Props.C02_data2rad_sameDir_iff"
   ],
   "note": "Full, over ℝ; k=0 is excluded (division by zero in the code)."
  },
  {
   "property": "C03",
   "status": "proved",
   "theorems": [
    "Verif.Props.C03_rotateData_spec",
    "Verif.Props.C03_rotateData_compose",
    "Verif.Props.C03_rotateData_back",
    "Verif.Props.C03_rotateData_error"
   ],
   "note": "Full, over ℝ."
  },
  {
   "property": "C04",
   "status": "proved",
   "theorems": [
    "Verif.Props.C04_angularDistance_isArcDist",
    "Verif.Props.C04_angularDistance_range",
    "Verif.Props.C04_angularDistance_symm",
    "Verif.Props.C04_angularDistance_eq_zero_iff",
    "Verif.Props.C04_angularDistance_triangle",
    "Verif.Props.C04_angularDistance_congr",
    "Verif.Props.C04_cos_angularDistance"
   ],
   "note": "Full, over ℝ."
  },
  {
   "property": "C05",
   "status": "proved",
   "theorems": [
    "Verif.Props.C05_result_stars",
    "Verif.Props.C05_significanceCode_spec",
    "Verif.Props.C05_significanceCode_antitone"
   ],
   "note": "Full."
  },
  {
   "property": "C06",
   "status": "proved",
   "theorems": [
    "Verif.Props.C06_isWithin_iff_onArc",
    "Verif.Props.C06_isWithin_congr",
    "Verif.Props.C06_isWithin_rotate",
    "Verif.Props.C06_isWithin_or_swap"
   ],
   "note": "Full. The two-arc law needs lb and ub to be different directions."
  },
  {
   "property": "C07",
   "status": "proved",
   "theorems": [
    "Verif.Props.C07_circR_is_mean_vector_length",
    "Verif.Props.C07_circR_range",
    "Verif.Props.C07_circR_eq_one_iff"
   ],
   "note": "Full, over ℝ. Arrays of equal length; total weight 0 is `none` (nan)."
  },
  {
   "property": "C08",
   "status": "proved",
   "theorems": [
    "Verif.Props.C08_circR_rotate",
    "Verif.Props.C08_circR_reflect",
    "Verif.Props.C08_circR_turns",
    "Verif.Props.C08_circR_perm",
    "Verif.Props.C08_circR_scale"
   ],
   "note": "Full, over ℝ."
  },
  {
   "property": "C09",
   "status": "proved",
   "theorems": [
    "Verif.Props.C09_circR_expand",
    "Verif.Props.C09_circMean_expand",
    "Verif.Props.C09_circMoment_expand"
   ],
   "note": "Full, over ℝ, for circ_r, circ_mean, circ_mean_and_r and circ_moment."
  },
  {
   "property": "C10",
   "status": "proved",
   "theorems": [
    "Verif.Props.C10_circMean_nan_iff",
    "Verif.Props.C10_circMeanAndR_nan_iff",
    "Verif.Props.C10_circMean_polar",
    "Verif.Props.C10_circMean_eq_circMeanAndR",
    "Verif.Props.C10_circMean_rotate",
    "Verif.Props.C10_circMean_reflect",
    "Verif.Props.C10_circMean_invariant"
   ],
   "note": "Full, over ℝ; tolerances 1e-8 and 1e-12 literal."
  },
  {
   "property": "C11",
   "status": "proved",
   "theorems": [
    "Verif.Props.C11_circMean_maximises"
   ],
   "note": "Full, for positive total weight."
  },
  {
   "property": "C12",
   "status": "proved",
   "theorems": [
    "Verif.Props.C12_mean_of_means"
   ],
   "note": "Full, for groups whose means are defined; nan means are not valid inputs of the combined call."
  },
  {
   "property": "C13",
   "status": "proved",
   "theorems": [
    "Verif.Props.C13_moment_def",
    "Verif.Props.C13_moment_norm_le_one",
    "Verif.Props.C13_moment_rotate",
    "Verif.Props.C13_moment_reflect",
    "Verif.Props.C13_moment_about",
    "Verif.Props.C13_moment_centered",
    "Verif.Props.C13_first_centered_moment",
    "Verif.Props.C13_convertMoment_polar"
   ],
   "note": "Full."
  },
  {
   "property": "C14",
   "status": "proved",
   "theorems": [
    "Verif.Props.C14_dispersion_invariant",
    "Verif.Props.C14_shape_rotate",
    "Verif.Props.C14_shape_reflect",
    "Verif.Props.C14_skewness_symmetric",
    "Verif.Props.C14_shape_rotate_fails_at_zero"
   ],
   "note": "Full, with a theorem showing the non-zero resultant hypothesis is necessary."
  },
  {
   "property": "C15",
   "status": "proved",
   "theorems": [
    "Verif.Props.C15_var_of_r",
    "Verif.Props.C15_var_of_data",
    "Verif.Props.C15_angularStd_of_r",
    "Verif.Props.C15_circStd_of_r",
    "Verif.Props.C15_circStd_antitone",
    "Verif.Props.C15_bin_correction",
    "Verif.Props.C15_bin_zero",
    "Verif.Props.C15_bin_correction_negative",
    "Verif.Props.C15_errors",
    "Verif.Props.C15_equal_weights"
   ],
   "note": "Full, including the theorem that the bin correction can leave [0,1]."
  },
  {
   "property": "C16",
   "status": "proved",
   "theorems": [
    "Verif.Props.C16_chunked_eq_direct"
   ],
   "note": "Full; the chunked version is run over an arbitrary initial buffer (np.empty)."
  },
  {
   "property": "C17",
   "status": "proved",
   "theorems": [
    "Verif.Props.C17_geodesic_isArcDist",
    "Verif.Props.C17_geodesic_negative",
    "Verif.Props.C17_geodesic_not_periodic",
    "Verif.Props.C17_meanDeviation_is_mean_arc"
   ],
   "note": "Full; includes the theorems that the geodesic formula is negative / not periodic outside the normalised range."
  },
  {
   "property": "C18",
   "status": "proved",
   "theorems": [
    "Verif.Props.C18_deviation_candidates",
    "Verif.Props.C18_deviation_average",
    "Verif.Props.C18_deviation_optimal",
    "Verif.Props.C18_deviation_rotate"
   ],
   "note": "Full, over ℝ (round to 5 decimals literal)."
  },
  {
   "property": "C19",
   "status": "proved",
   "theorems": [
    "Verif.Props.C19_count_candidates",
    "Verif.Props.C19_imbalance",
    "Verif.Props.C19_double_count"
   ],
   "note": "Full, with a theorem exhibiting the double count near π."
  },
  {
   "property": "C20",
   "status": "proved",
   "theorems": [
    "Verif.Props.C20_dispersion_small_n",
    "Verif.Props.C20_dispersion_interval",
    "Verif.Props.C20_dispersion_overdispersed"
   ],
   "note": "Full, over ℝ; normal quantile is a parameter."
  },
  {
   "property": "C21",
   "status": "proved",
   "theorems": [
    "Verif.Props.C21_approximate_refused",
    "Verif.Props.C21_approximate_moderate",
    "Verif.Props.C21_approximate_concentrated",
    "Verif.Props.C21_concentrated_not_nan",
    "Verif.Props.C21_approximate_from_sample"
   ],
   "note": "Full, over ℝ; chi-square quantile is a parameter."
  },
  {
   "property": "C22",
   "status": "proved",
   "theorems": [
    "Verif.Props.C22_bootstrap_contains_mean",
    "Verif.Props.C22_bootstrap_ci",
    "Verif.Props.C22_bootstrap_refused"
   ],
   "note": "Full; resampling draws are parameters, so it holds for every outcome of the generator."
  },
  {
   "property": "C23",
   "status": "proved",
   "theorems": [
    "Verif.Props.C23_median_ci_large",
    "Verif.Props.C23_index_error_iff",
    "Verif.Props.C23_index_error_witness",
    "Verif.Props.C23_small_ignores_median",
    "Verif.Props.C23_small_misses_median"
   ],
   "note": "Full: containment when an interval is returned, an exact characterisation of the IndexError, a witness of it, and a witness that the tabulated interval for n ≤ 15 can miss the median."
  },
  {
   "property": "C24",
   "status": "proved",
   "theorems": [
    "Verif.Props.C24_hdi",
    "Verif.Props.C24_hdi_refused"
   ],
   "note": "Full: the interval is the shortest arc holding the required number of draws."
  },
  {
   "property": "C25",
   "status": "proved",
   "theorems": [
    "Verif.Props.C25_center",
    "Verif.Props.C25_center_unique",
    "Verif.Props.C25_separation_chord",
    "Verif.Props.C25_periodic",
    "Verif.Props.C25_swap",
    "Verif.Props.C25_metric_error",
    "Verif.Props.C25_pairdist"
   ],
   "note": "Full."
  },
  {
   "property": "C26",
   "status": "proved",
   "theorems": [
    "Verif.Props.C26_range_shortest",
    "Verif.Props.C26_range_bounds",
    "Verif.Props.C26_range_empty",
    "Verif.Props.C26_range_rotate",
    "Verif.Props.C26_range_reflect",
    "Verif.Props.C26_range_perm_congr"
   ],
   "note": "Full: shortest arc covering all data; equivariance laws."
  },
  {
   "property": "C27",
   "status": "proved",
   "theorems": [
    "Verif.Props.C27_quantile",
    "Verif.Props.C27_quantile_ends",
    "Verif.Props.C27_quantile_mono",
    "Verif.Props.C27_quantile_undefined"
   ],
   "note": "Full, for the default quantile type; the median is the one of C18/C85."
  },
  {
   "property": "C28",
   "status": "proved",
   "theorems": [
    "Verif.Props.C28_kappa_nonneg",
    "Verif.Props.C28_kappa_strictMono",
    "Verif.Props.C28_kappa_not_monotone",
    "Verif.Props.C28_kappa_eq_a1inv",
    "Verif.Props.C28_kappa_at_one",
    "Verif.Props.C28_kappa_corrected",
    "Verif.Props.C28_kappa_uncorrected"
   ],
   "note": "Full, with the theorem that the estimate is not monotone across 0.85."
  },
  {
   "property": "C29",
   "status": "proved",
   "theorems": [
    "Verif.Props.C29_kde_nonneg",
    "Verif.Props.C29_kde_periodic",
    "Verif.Props.C29_kde_is_kernel_average",
    "Verif.Props.C29_kde_mass",
    "Verif.Props.C29_kde_curve",
    "Verif.Props.C29_area",
    "Verif.Props.C29_bandwidth"
   ],
   "note": "Full, over ℝ, mass 1 for bandwidth at most π."
  },
  {
   "property": "C30",
   "status": "proved",
   "theorems": [
    "Verif.Props.C30_rayleigh",
    "Verif.Props.C30_rayleigh_antitone",
    "Verif.Props.C30_rayleigh_antitone_n",
    "Verif.Props.C30_rayleigh_sample",
    "Verif.Props.C30_rayleigh_refused",
    "Verif.Props.C30_rayleigh_refused_sample"
   ],
   "note": "Full, over ℝ; simulated replicates are parameters."
  },
  {
   "property": "C31",
   "status": "proved",
   "theorems": [
    "Verif.Props.C31_kuiper",
    "Verif.Props.C31_rao_spacing",
    "Verif.Props.C31_rayleigh",
    "Verif.Props.C31_rayleigh_antitone",
    "Verif.Props.C31_angular_randomisation",
    "Verif.Props.C31_angular_randomisation_refused",
    "Verif.Props.C31_watson"
   ],
   "note": "Full for every simulated p value in the library that is modelled (see theorem names): bounds, monotonicity in the observed statistic."
  },
  {
   "property": "C32",
   "status": "proved",
   "theorems": [
    "Verif.Props.C32_V_sample",
    "Verif.Props.C32_V_undefined",
    "Verif.Props.C32_V_summary",
    "Verif.Props.C32_V_rotate",
    "Verif.Props.C32_V_monotone"
   ],
   "note": "Full, over ℝ."
  },
  {
   "property": "C33",
   "status": "proved",
   "theorems": [
    "Verif.Props.C33_decision",
    "Verif.Props.C33_decision_sample",
    "Verif.Props.C33_mean_not_rejected"
   ],
   "note": "Full: decision characterised by the interval of C20/C21."
  },
  {
   "property": "C34",
   "status": "proved",
   "theorems": [
    "Verif.Props.C34_m_is_min",
    "Verif.Props.C34_pvalue",
    "Verif.Props.C34_refused",
    "Verif.Props.C34_not_rotation_invariant",
    "Verif.Props.C34_balanced_gets_zero"
   ],
   "note": "Full: minimum, p value formula, refusals, and two negative results with witnesses."
  },
  {
   "property": "C35",
   "status": "proved",
   "theorems": [
    "Verif.Props.C35_count",
    "Verif.Props.C35_pvalue",
    "Verif.Props.C35_rotate",
    "Verif.Props.C35_opposite"
   ],
   "note": "Full, over ℝ; the exact binomial p value is a finite sum."
  },
  {
   "property": "C36",
   "status": "proved",
   "theorems": [
    "Verif.Props.C36_watson_williams",
    "Verif.Props.C36_rotate",
    "Verif.Props.C36_perm",
    "Verif.Props.C36_refused"
   ],
   "note": "Full, over ℝ; the F distribution's tail is a parameter."
  },
  {
   "property": "C37",
   "status": "proved",
   "theorems": [
    "Verif.Props.C37_sums_of_squares",
    "Verif.Props.C37_likelihood_ratio",
    "Verif.Props.C37_refused",
    "Verif.Props.C37_rotate",
    "Verif.Props.C37_order"
   ],
   "note": "Full, over ℝ; the F and chi-square distribution functions are parameters."
  },
  {
   "property": "C38",
   "status": "proved",
   "theorems": [
    "Verif.Props.C38_sorted",
    "Verif.Props.C38_unsorted",
    "Verif.Props.C38_order_matters",
    "Verif.Props.C38_swap",
    "Verif.Props.C38_range",
    "Verif.Props.C38_pvalue_two",
    "Verif.Props.C38_rotate"
   ],
   "note": "Full, for samples whose distinct values are further apart than the tolerance; refusal and p value > 1 are proved too."
  },
  {
   "property": "C39",
   "status": "proved",
   "theorems": [
    "Verif.Props.C39_two_samples",
    "Verif.Props.C39_many_samples",
    "Verif.Props.C39_nonneg",
    "Verif.Props.C39_swap",
    "Verif.Props.C39_rotate_two",
    "Verif.Props.C39_rotate_many",
    "Verif.Props.C39_order_many",
    "Verif.Props.C39_ties_asymmetric"
   ],
   "note": "Full; asymmetry under ties proved with a witness."
  },
  {
   "property": "C40",
   "status": "proved",
   "theorems": [
    "Verif.Props.C40_wallraff",
    "Verif.Props.C40_scalar_angle",
    "Verif.Props.C40_swap",
    "Verif.Props.C40_rotate",
    "Verif.Props.C40_weights_ignored"
   ],
   "note": "Full for unit weights; for weights the claim is refuted by a witness."
  },
  {
   "property": "C41",
   "status": "proved",
   "theorems": [
    "Verif.Props.C41_kuiper",
    "Verif.Props.C41_kuiper_range",
    "Verif.Props.C41_kuiper_rotate",
    "Verif.Props.C41_kuiper_refused"
   ],
   "note": "Full, for data in [0,2π); the statistic is characterised by suprema over all directions."
  },
  {
   "property": "C42",
   "status": "proved",
   "theorems": [
    "Verif.Props.C42_watson",
    "Verif.Props.C42_watson_variance",
    "Verif.Props.C42_watson_range",
    "Verif.Props.C42_watson_rotate",
    "Verif.Props.C42_watson_refused"
   ],
   "note": "Full; also characterised as n times the variance of F_n(θ)-θ/2π (integral) and by a pair kernel."
  },
  {
   "property": "C43",
   "status": "proved",
   "theorems": [
    "Verif.Props.C43_rao_spacing",
    "Verif.Props.C43_rao_spacing_range",
    "Verif.Props.C43_rao_spacing_zero_iff",
    "Verif.Props.C43_rao_spacing_rotate",
    "Verif.Props.C43_rao_spacing_refused"
   ],
   "note": "Full, for data in [0,2π)."
  },
  {
   "property": "C44",
   "status": "proved",
   "theorems": [
    "Verif.Props.C44_binomial",
    "Verif.Props.C44_binomial_rotate",
    "Verif.Props.C44_binomial_reflect",
    "Verif.Props.C44_reflect_fails_opposite",
    "Verif.Props.C44_binomial_monotone",
    "Verif.Props.C44_binomial_refused"
   ],
   "note": "Full; the failure of reflection with an antipodal observation is proved with a witness."
  },
  {
   "property": "C45",
   "status": "proved",
   "theorems": [
    "Verif.Props.C45_concentration",
    "Verif.Props.C45_refused",
    "Verif.Props.C45_swap",
    "Verif.Props.C45_rotate",
    "Verif.Props.C45_swap_fails"
   ],
   "note": "Full; symmetry of the p value is refuted at F = 1 with different sizes (C45_swap_fails)."
  },
  {
   "property": "C46",
   "status": "proved",
   "theorems": [
    "Verif.Props.C46_polar",
    "Verif.Props.C46_disp",
    "Verif.Props.C46_decision",
    "Verif.Props.C46_antipodal",
    "Verif.Props.C46_disp_rotate",
    "Verif.Props.C46_order",
    "Verif.Props.C46_polar_rotate_fails"
   ],
   "note": "Full for groups of two or more observations."
  },
  {
   "property": "C47",
   "status": "proved",
   "theorems": [
    "Verif.Props.C47_change_point",
    "Verif.Props.C47_refused",
    "Verif.Props.C47_rotate",
    "Verif.Props.C47_reverse",
    "Verif.Props.C47_one_direction",
    "Verif.Props.C47_likelihood",
    "Verif.Props.C47_likelihood_nan"
   ],
   "note": "Full; log I0 is a parameter."
  },
  {
   "property": "C48",
   "status": "proved",
   "theorems": [
    "Verif.Props.C48_decomposition",
    "Verif.Props.C48_empty_cell",
    "Verif.Props.C48_no_interaction",
    "Verif.Props.C48_balanced",
    "Verif.Props.C48_interaction_negative",
    "Verif.Props.C48_small",
    "Verif.Props.C48_small_interaction",
    "Verif.Props.C48_small_empty_cell",
    "Verif.Props.C48_small_ignores_inter",
    "Verif.Props.C48_rotate",
    "Verif.Props.C48_order",
    "Verif.Props.C48_swap"
   ],
   "note": "Full; F and chi-square distribution functions and the Bessel ratio are parameters. Two negative results with witnesses."
  },
  {
   "property": "C49",
   "status": "proved",
   "theorems": [
    "Verif.Props.C49_regime",
    "Verif.Props.C49_refused",
    "Verif.Props.C49_small",
    "Verif.Props.C49_small_nan",
    "Verif.Props.C49_moderate",
    "Verif.Props.C49_large",
    "Verif.Props.C49_small_negative",
    "Verif.Props.C49_rotate",
    "Verif.Props.C49_turn_same_regime",
    "Verif.Props.C49_order",
    "Verif.Props.C49_turn_fails"
   ],
   "note": "Full; the chi-square distribution function is a parameter."
  },
  {
   "property": "C50",
   "status": "proved",
   "theorems": [
    "Verif.Props.C50_common_median",
    "Verif.Props.C50_refused",
    "Verif.Props.C50_rotate",
    "Verif.Props.C50_order"
   ],
   "note": "Full, given the pooled median of C18/C85."
  },
  {
   "property": "C51",
   "status": "proved",
   "theorems": [
    "Verif.Props.C51_value",
    "Verif.Props.C51_refused",
    "Verif.Props.C51_range",
    "Verif.Props.C51_one_iff",
    "Verif.Props.C51_self",
    "Verif.Props.C51_symm",
    "Verif.Props.C51_rotate",
    "Verif.Props.C51_perm",
    "Verif.Props.C51_reflect",
    "Verif.Props.C51_test",
    "Verif.Props.C51_test_two"
   ],
   "note": "Full; the normal quantile is a parameter."
  },
  {
   "property": "C52",
   "status": "proved",
   "theorems": [
    "Verif.Props.C52_value",
    "Verif.Props.C52_nan",
    "Verif.Props.C52_refused",
    "Verif.Props.C52_range",
    "Verif.Props.C52_centered",
    "Verif.Props.C52_symm",
    "Verif.Props.C52_rotate",
    "Verif.Props.C52_reflect",
    "Verif.Props.C52_self",
    "Verif.Props.C52_test"
   ],
   "note": "Full; the normal distribution function is a parameter."
  },
  {
   "property": "C53",
   "status": "proved",
   "theorems": [
    "Verif.Props.C53_value",
    "Verif.Props.C53_refused",
    "Verif.Props.C53_range",
    "Verif.Props.C53_symm",
    "Verif.Props.C53_order",
    "Verif.Props.C53_reverse",
    "Verif.Props.C53_rotate",
    "Verif.Props.C53_perm",
    "Verif.Props.C53_self",
    "Verif.Props.C53_methods",
    "Verif.Props.C53_one_sided",
    "Verif.Props.C53_blind"
   ],
   "note": "Full."
  },
  {
   "property": "C54",
   "status": "proved",
   "theorems": [
    "Verif.Props.C54_value",
    "Verif.Props.C54_defined",
    "Verif.Props.C54_refused",
    "Verif.Props.C54_invariant",
    "Verif.Props.C54_rotate_fails"
   ],
   "note": "Full; the chi-square distribution function is a parameter."
  },
  {
   "property": "C55",
   "status": "proved",
   "theorems": [
    "Verif.Props.C55_refused",
    "Verif.Props.C55_output",
    "Verif.Props.C55_mod",
    "Verif.Props.C55_rho",
    "Verif.Props.C55_rho_one",
    "Verif.Props.C55_rho_ge",
    "Verif.Props.C55_rotate",
    "Verif.Props.C55_shift",
    "Verif.Props.C55_test",
    "Verif.Props.C55_message"
   ],
   "note": "Full for every exact least-squares solution (lstsq is a parameter, its normal-equation property a hypothesis that is shown satisfiable)."
  },
  {
   "property": "C56",
   "status": "proved",
   "theorems": [
    "Verif.Props.C56_loop",
    "Verif.Props.C56_no_pass",
    "Verif.Props.C56_error",
    "Verif.Props.C56_mean",
    "Verif.Props.C56_kappa",
    "Verif.Props.C56_mixed",
    "Verif.Props.C56_untouched",
    "Verif.Props.C56_converged",
    "Verif.Props.C56_stale"
   ],
   "note": "Full, for every update step; the three model types are instances."
  },
  {
   "property": "C57",
   "status": "proved",
   "theorems": [
    "Verif.Props.C57_regression",
    "Verif.Props.C57_mixture"
   ],
   "note": "Full; the log-likelihood value is that of the data handed in (see C93 for which data those are)."
  },
  {
   "property": "C58",
   "status": "proved",
   "theorems": [
    "Verif.Props.C58_resp",
    "Verif.Props.C58_bayes",
    "Verif.Props.C58_labels",
    "Verif.Props.C58_movm",
    "Verif.Props.C58_mocd",
    "Verif.Props.C58_mokj",
    "Verif.Props.C58_refused",
    "Verif.Props.C58_ctor",
    "Verif.Props.C58_nan"
   ],
   "note": "Full; component log-densities, initial labels and component fits are parameters."
  },
  {
   "property": "C59",
   "status": "proved",
   "theorems": [
    "Verif.Props.C59_loop",
    "Verif.Props.C59_fresh",
    "Verif.Props.C59_burnin",
    "Verif.Props.C59_refit",
    "Verif.Props.C59_recorded"
   ],
   "note": "Full, for every update step, hence for the three mixture classes. Stale attributes after a second fit are shown with a witness."
  },
  {
   "property": "C60",
   "status": "proved",
   "theorems": [
    "Verif.Props.C60_score",
    "Verif.Props.C60_density",
    "Verif.Props.C60_movm"
   ],
   "note": "Full, for any component density of total mass one."
  },
  {
   "property": "C61",
   "status": "proved",
   "theorems": [
    "Verif.Props.C61_partition",
    "Verif.Props.C61_count",
    "Verif.Props.C61_merges",
    "Verif.Props.C61_small"
   ],
   "note": "Full, for every metric and every pre-clustering. The early stop is characterised, not excluded."
  },
  {
   "property": "C62",
   "status": "proved",
   "theorems": [
    "Verif.Props.C62_closest",
    "Verif.Props.C62_center_fails"
   ],
   "note": "Full; for metric 'center' the negation has a witness."
  },
  {
   "property": "C63",
   "status": "proved",
   "theorems": [
    "Verif.Props.C63_fit",
    "Verif.Props.C63_inertia",
    "Verif.Props.C63_few",
    "Verif.Props.C63_predict",
    "Verif.Props.C63_label_unique",
    "Verif.Props.C63_predict_fitted",
    "Verif.Props.C63_nan",
    "Verif.Props.C63_predict_fails",
    "Verif.Props.C63_undefined"
   ],
   "note": "Full; the drawn initial indices are a parameter. Negative parts have witnesses."
  },
  {
   "property": "C64",
   "status": "proved",
   "theorems": [
    "Verif.Props.C64_value",
    "Verif.Props.C64_small",
    "Verif.Props.C64_score",
    "Verif.Props.C64_range",
    "Verif.Props.C64_score_range",
    "Verif.Props.C64_defined",
    "Verif.Props.C64_inflated"
   ],
   "note": "Full."
  },
  {
   "property": "C65",
   "status": "proved",
   "theorems": [
    "Verif.Props.C65_full_cycle",
    "Verif.Props.C65_unknown_unit",
    "Verif.Props.C65_method_table",
    "Verif.Props.C65_no_interval",
    "Verif.Props.C65_attributes",
    "Verif.Props.C65_ungrouped"
   ],
   "note": "Full: unit table, method table, no interval for p ≥ 0.05, attribute consistency; mixtures (n_clusters_max > 1) not modelled."
  },
  {
   "property": "C66",
   "status": "proved",
   "theorems": [
    "Verif.Props.C66_opposite",
    "Verif.Props.C66_mean",
    "Verif.Props.C66_doubled",
    "Verif.Props.C66_rotate",
    "Verif.Props.C66_other_cycle_fails",
    "Verif.Props.C66_median_not_halved",
    "Verif.Props.C66_grouped_bin_size"
   ],
   "note": "Full for data in the cycle of their unit; three negative theorems: another full_cycle with a known unit breaks the identification, the median is not halved, grouped data get a negative bin size."
  },
  {
   "property": "C67",
   "status": "proved",
   "theorems": [
    "Verif.C67_periodic",
    "Verif.C67_pdf_turns",
    "Verif.C67_cdf_seam",
    "Verif.C67_sf"
   ],
   "note": "Full; scipy's dispatch around the methods is part of the trusted description."
  },
  {
   "property": "C68",
   "status": "proved",
   "theorems": [
    "Verif.C68_keywords",
    "Verif.C68_tolerance",
    "Verif.C68_positional",
    "Verif.C68_positional_base",
    "Verif.C68_fit",
    "Verif.C68_shapes",
    "Verif.C68_shape_conflict"
   ],
   "note": "Full; the negative part (positional loc and scale) has a witness."
  },
  {
   "property": "C69",
   "status": "proved",
   "theorems": [
    "Verif.C69_cache_transparent",
    "Verif.C69_computed_once"
   ],
   "note": "Full, for deterministic builders and parameters with distinct cache keys."
  },
  {
   "property": "C70",
   "status": "proved",
   "theorems": [
    "Verif.C70_monotone",
    "Verif.C70_order",
    "Verif.C70_accuracy"
   ],
   "note": "Full, for an exact quadrature."
  },
  {
   "property": "C71",
   "status": "proved",
   "theorems": [
    "Verif.C71_distribution",
    "Verif.C71_ppf",
    "Verif.C71_fit"
   ],
   "note": "Full."
  },
  {
   "property": "C72",
   "status": "proved",
   "theorems": [
    "Verif.C72_distribution",
    "Verif.C72_ppf",
    "Verif.C72_ppf_exact",
    "Verif.C72_rejects",
    "Verif.C72_resultant"
   ],
   "note": "Full."
  },
  {
   "property": "C73",
   "status": "proved",
   "theorems": [
    "Verif.C73_distribution",
    "Verif.C73_resultant"
   ],
   "note": "Full."
  },
  {
   "property": "C74",
   "status": "proved",
   "theorems": [
    "Verif.C74_ppf"
   ],
   "note": "Full."
  },
  {
   "property": "C75",
   "status": "proved",
   "theorems": [
    "Verif.C75_density",
    "Verif.C75_resultant",
    "Verif.C75_cdf",
    "Verif.C75_cdf_uniform",
    "Verif.C75_cdf_jump",
    "Verif.C75_cdf_drop",
    "Verif.C75_ppf"
   ],
   "note": "Full; the two failures of the cdf method near 2π are proved as counterexamples."
  },
  {
   "property": "C76",
   "status": "proved",
   "theorems": [
    "Verif.C76_entropy_increases",
    "Verif.C76_density",
    "Verif.C76_moments",
    "Verif.C76_median",
    "Verif.C76_entropy",
    "Verif.C76_cdf",
    "Verif.C76_cdf_small",
    "Verif.C76_cdf_jump"
   ],
   "note": "Full; the Bessel functions are their integrals; the numerical fallback of the cdf (kappa above 2500, where the series loop may not converge) is a parameter. Negative parts have proofs."
  },
  {
   "property": "C77",
   "status": "proved",
   "theorems": [
    "Verif.C77_density",
    "Verif.C77_is_density",
    "Verif.C77_symmetric",
    "Verif.C77_cdf_error",
    "Verif.C77_small_kappa_cdf",
    "Verif.C77_small_kappa_cdf_wrong",
    "Verif.C77_small_kappa_origin",
    "Verif.C77_small_kappa_ppf",
    "Verif.C77_sampler_refuses",
    "Verif.C77_sampler_first",
    "Verif.C77_sampler_law"
   ],
   "note": "Full for |κψ| ≤ 700; scipy's Legendre function is a parameter assumed exact where it gives a number. Failures proved."
  },
  {
   "property": "C78",
   "status": "proved",
   "theorems": [
    "Verif.C78_density",
    "Verif.C78_constraint_exact",
    "Verif.C78_refused",
    "Verif.C78_moments"
   ],
   "note": "Full for parameters that satisfy the constraint exactly and rho ≤ 1-4e-8 (above that the denominator guard 1e-15 can change values); exactness of the constraint proved both ways."
  },
  {
   "property": "C79",
   "status": "proved",
   "theorems": [
    "Verif.C79_roundtrip_rho",
    "Verif.C79_roundtrip_alpha",
    "Verif.C79_tolerance_mismatch",
    "Verif.C79_aux_feasible",
    "Verif.C79_aux_inverse"
   ],
   "note": "Full; includes the mismatch of tolerances as a theorem."
  },
  {
   "property": "C80",
   "status": "proved",
   "theorems": [
    "Verif.C80_cdf",
    "Verif.C80_cdf_increasing",
    "Verif.C80_small_rho_uniform",
    "Verif.C80_cdf_wraps"
   ],
   "note": "Positive parts for rho ≤ 0.995 (the series is cut at 5000 terms); both failures proved with witnesses."
  },
  {
   "property": "C81",
   "status": "proved",
   "theorems": [
    "Verif.C81_flat_cdf",
    "Verif.C81_flat_not_monotone",
    "Verif.C81_invbat_cdf"
   ],
   "note": "Flat-topped von Mises and inverse Batschelet families. Inverse Batschelet: kappa ≤ 340, after any history of calls, up to 5π/128 times the peak density, the drop from 1 to 0 set apart. Flat-topped: the positive part is proved for kappa ≤ 300 (above that the floor exp(-700) can matter), the failure at kappa=1000 is proved."
  },
  {
   "property": "C82",
   "status": "proved",
   "theorems": [
    "Verif.C82_jonespewsey_asym",
    "Verif.C82_jonespewsey",
    "Verif.C82_jonespewsey_sineskewed",
    "Verif.C82_katojones_solver",
    "Verif.C82_katojones",
    "Verif.C82_katojones_upper",
    "Verif.C82_solver",
    "Verif.C82_wrapnorm_solver",
    "Verif.C82_accuracy"
   ],
   "note": "Full, for both solver loops with arbitrary cdf, density and starting values."
  },
  {
   "property": "C83",
   "status": "proved",
   "theorems": [
    "Verif.C83_cartwright",
    "Verif.C83_wrapcauchy",
    "Verif.C83_jonespewsey_asym",
    "Verif.C83_jonespewsey",
    "Verif.C83_jonespewsey_sineskewed",
    "Verif.C83_katojones_mle",
    "Verif.C83_katojones_seam",
    "Verif.C83_katojones_moments",
    "Verif.C83_triangular",
    "Verif.C83_cardioid",
    "Verif.C83_refusals",
    "Verif.C83_empty",
    "Verif.C83_triangular_mle",
    "Verif.C83_vonmises",
    "Verif.C83_wrapnorm",
    "Verif.C83_wrapstable",
    "Verif.C83_wrapstable_bounds_ignored",
    "Verif.C83_flat",
    "Verif.C83_invbat"
   ],
   "note": "Full; optimiser and root finder are parameters. Wrapped stable: default bounds; caller's bounds do not bind the moment estimates (proved)."
  },
  {
   "property": "C84",
   "status": "proved",
   "theorems": [
    "Verif.C84_history",
    "Verif.C84_one_factor",
    "Verif.C84_unaffected",
    "Verif.C84_bounded"
   ],
   "note": "Negative: witness; positive theorems on what histories can and cannot change."
  },
  {
   "property": "C85",
   "status": "proved",
   "theorems": [
    "Verif.Props.C85_median_perm",
    "Verif.Props.C85_median_order_dependent"
   ],
   "note": "Full: invariance outside the shortcut and a counterexample inside it."
  },
  {
   "property": "C86",
   "status": "proved",
   "theorems": [
    "Verif.Props.C86_grouped_in_bin",
    "Verif.Props.C86_grouped_odd_bins_indexError",
    "Verif.Props.C86_grouped_halves",
    "Verif.Props.C86_grouped_antimedian"
   ],
   "note": "Full: the single median halves the histogram and is no antimedian (even number of equal bins, integer counts, bins at least 3e-6 wide), containment for any bins, an odd-bin data set on which IndexError is raised, and a data set whose averaged median is the middle of an empty bin."
  },
  {
   "property": "C87",
   "status": "proved",
   "theorems": [
    "Verif.Props.C87_v0_not_sqrt",
    "Verif.Props.C87_v0_sqrt_of_uncorrelated",
    "Verif.Props.C87_published_formula_sqrt"
   ],
   "note": "Full: the claim of a square root is refuted for correlated data, proved for uncorrelated data and for the published formula."
  },
  {
   "property": "C88",
   "status": "proved",
   "theorems": [
    "Verif.Props.C88_coerce",
    "Verif.Props.C88_coerce_plain",
    "Verif.Props.C88_coerce_integers",
    "Verif.Props.C88_coerce_refused"
   ],
   "note": "Full."
  },
  {
   "property": "C89",
   "status": "proved",
   "theorems": [
    "Verif.Props.C89_statistic"
   ],
   "note": "Full, for data in [0,2π)."
  },
  {
   "property": "C90",
   "status": "proved",
   "theorems": [
    "Verif.Props.C90_rao_frequencies",
    "Verif.Props.C90_rao_truncates",
    "Verif.Props.C90_rao_refused"
   ],
   "note": "Full; the truncation of near-whole frequencies is proved with a witness."
  },
  {
   "property": "C91",
   "status": "proved",
   "theorems": [
    "Verif.Props.C91_range_test_exact",
    "Verif.Props.C91_range_test",
    "Verif.Props.C91_range_test_pvalue",
    "Verif.Props.C91_range_test_monotone",
    "Verif.Props.C91_range_test_half",
    "Verif.Props.C91_range_test_rotate",
    "Verif.Props.C91_range_test_refused"
   ],
   "note": "Full, including the probabilistic meaning of the p-value (Stevens)."
  },
  {
   "property": "C92",
   "status": "proved",
   "theorems": [
    "Verif.Props.C92_kappa_bessel",
    "Verif.Props.C92_mixed_gamma_bessel",
    "Verif.Props.C92_mixed_fails_bessel",
    "Verif.Props.C92_mean",
    "Verif.Props.C92_kappa",
    "Verif.Props.C92_mixed_gamma",
    "Verif.Props.C92_mixed_perfect",
    "Verif.Props.C92_mixed_fails"
   ],
   "note": "Full; linear solves are parameters assumed exact for invertible matrices. The negative part has a witness."
  },
  {
   "property": "C93",
   "status": "proved",
   "theorems": [
    "Verif.Props.C93_degree",
    "Verif.Props.C93_fails"
   ],
   "note": "Full; the negative part has a witness."
  },
  {
   "property": "C94",
   "status": "proved",
   "theorems": [
    "Verif.Props.C94_pass",
    "Verif.Props.C94_run"
   ],
   "note": "Full for exact weighted maximum likelihood fits (a hypothesis; the library's own fits are numerical)."
  },
  {
   "property": "C95",
   "status": "proved",
   "theorems": [
    "Verif.Props.C95_center",
    "Verif.Props.C95_pass",
    "Verif.Props.C95_run"
   ],
   "note": "Full; undefined centres (means of length at most 1e-12) are excluded by hypothesis."
  },
  {
   "property": "C96",
   "status": "proved",
   "theorems": [
    "Verif.Props.C96_binned_size",
    "Verif.Props.C96_angle_lost"
   ],
   "note": "Full; np.histogram is modelled by its definition (half-open bins, last one closed)."
  },
  {
   "property": "C97",
   "status": "proved",
   "theorems": [
    "Verif.Props.C97_single_median",
    "Verif.Props.C97_tied_refused",
    "Verif.Props.C97_witness"
   ],
   "note": "Full, with witness."
  },
  {
   "property": "C98",
   "status": "proved",
   "theorems": [
    "Verif.Props.C98_grouped_fails",
    "Verif.Props.C98_binned_fails",
    "Verif.Props.C98_thresholds_disagree",
    "Verif.Props.C98_grouped_witness",
    "Verif.Props.C98_large_samples",
    "Verif.Props.C98_large_object"
   ],
   "note": "Full: existence for n ≥ 25, impossibility for grouped data and a witness for plain data with 8 ≤ n < 25."
  },
  {
   "property": "C99",
   "status": "proved",
   "theorems": [
    "Verif.C99_stats",
    "Verif.C99_rotate"
   ],
   "note": "Full; trigonometric moments are parameters."
  },
  {
   "property": "C100",
   "status": "proved",
   "theorems": [
    "Verif.C100_median_antipodal",
    "Verif.C100_median_half"
   ],
   "note": "Full."
  },
  {
   "property": "C101",
   "status": "proved",
   "theorems": [
    "Verif.C101_cartwright_objective",
    "Verif.C101_cartwright_antipode",
    "Verif.C101_cartwright_gradient",
    "Verif.C101_wrapcauchy_objective",
    "Verif.C101_wrapcauchy_gradient",
    "Verif.C101_cardioid_objective",
    "Verif.C101_cardioid_gradient",
    "Verif.C101_vonmises_objective",
    "Verif.C101_vonmises_kappa",
    "Verif.C101_vonmises_mu_sign",
    "Verif.C101_vonmises_witness",
    "Verif.C101_vonmises_best_mu"
   ],
   "note": "Cardioid, Cartwright, wrapped Cauchy and von Mises; the von Mises gradient in mu has the wrong sign (proved)."
  },
  {
   "property": "C102",
   "status": "proved",
   "theorems": [
    "Verif.C102_cartwright",
    "Verif.C102_wrapcauchy",
    "Verif.C102_wrapcauchy_degenerate",
    "Verif.C102_wrapcauchy_spread",
    "Verif.C102_flat",
    "Verif.C102_flat_low",
    "Verif.C102_invbat",
    "Verif.C102_asym_grid",
    "Verif.C102_asym_trial",
    "Verif.C102_asym_not_exact",
    "Verif.C102_jonespewsey",
    "Verif.C102_jonespewsey_first",
    "Verif.C102_jonespewsey_limits",
    "Verif.C102_katojones",
    "Verif.C102_triangular",
    "Verif.C102_cardioid",
    "Verif.C102_vonmises",
    "Verif.C102_vonmises_uniform",
    "Verif.C102_wrapnorm",
    "Verif.C102_wrapnorm_uniform",
    "Verif.C102_wrapstable_cauchy",
    "Verif.C102_wrapstable_normal",
    "Verif.C102_wrapstable_shift"
   ],
   "note": "Full for the inversion samplers and the Möbius sampler; the uniform draws are modelled by Lebesgue measure. Wrapped stable: moments of the two symmetric cases, and the shift for 1 < alpha < 2 as a proved failure; no statement for other alpha. Asymmetric Jones-Pewsey: acceptance share of every proposal, domination at the grid angles, and a proved failure of exactness. Von Mises: exact law of the rejection loop after any number of rounds, with the acceptance probability bounded below by 1/8. Inverse Batschelet: one round of the rejection loop, against the tabulated density. Jones-Pewsey: one round; nothing is said for psi > 40 or 0 < psi < 1/92 with kappa²·psi > 23."
  },
  {
   "property": "C103",
   "status": "proved",
   "theorems": [
    "Verif.C103_moments"
   ],
   "note": "Full, over ℝ, for angles in [0,2π]."
  },
  {
   "property": "C104",
   "status": "proved",
   "theorems": [
    "Verif.C104_density",
    "Verif.C104_small_kappa",
    "Verif.C104_vonmises",
    "Verif.C104_cardioid",
    "Verif.C104_wrapcauchy",
    "Verif.C104_cdf_error",
    "Verif.C104_wrapcauchy_cdf"
   ],
   "note": "Full for |κψ| ≤ 700 and psi = 0 or |psi| ≥ 1e-6; scipy's Legendre function is a parameter assumed exact where it gives a number. Smoothness, summability and aliasing are proved, not assumed."
  },
  {
   "property": "C105",
   "status": "proved",
   "theorems": [
    "Verif.Props.C105_mean",
    "Verif.Props.C105_mixed",
    "Verif.Props.C105_kappa",
    "Verif.Props.C105_kappa_start",
    "Verif.Props.C105_range",
    "Verif.Props.C105_not_reduced"
   ],
   "note": ""
  },
  {
   "property": "C106",
   "status": "proved",
   "theorems": [
    "Verif.C106_flat_density",
    "Verif.C106_flat_quantile"
   ],
   "note": "Full."
  },
  {
   "property": "C107",
   "status": "proved",
   "theorems": [
    "Verif.C107_flat_arguments",
    "Verif.C107_invbat_arguments"
   ],
   "note": "Negative: proved failure for the flat-topped and inverse Batschelet families."
  },
  {
   "property": "C108",
   "status": "proved",
   "theorems": [
    "Verif.C108_flat_acceptance",
    "Verif.C108_invbat_acceptance",
    "Verif.C108_jonespewsey",
    "Verif.C108_jonespewsey_cauchy"
   ],
   "note": "The property fails for the code; the bound is proved for 0 < kappa ≤ 1000, |nu| ≤ 1 and 1e-6 ≤ kappa(1+nu)² ≤ 1000 (it is informative for nu > 0); for the inverse Batschelet family for lmbd = 0, 0 < nu ≤ 1/2, kappa ≤ 340; for Jones-Pewsey for all parameters within floating-point range."
  },
  {
   "property": "C109",
   "status": "proved",
   "theorems": [
    "Verif.C109_cartwright",
    "Verif.C109_asym",
    "Verif.C109_asym_improves",
    "Verif.C109_asym_failure",
    "Verif.C109_wrapnorm",
    "Verif.C109_wrapnorm_failure",
    "Verif.C109_wrapstable",
    "Verif.C109_wrapstable_improves",
    "Verif.C109_wrapstable_failure",
    "Verif.C109_jonespewsey",
    "Verif.C109_jonespewsey_failure",
    "Verif.C109_jonespewsey_improves",
    "Verif.C109_sineskewed_twostep",
    "Verif.C109_sineskewed",
    "Verif.C109_sineskewed_failure",
    "Verif.C109_flat",
    "Verif.C109_flat_failure",
    "Verif.C109_flat_improves",
    "Verif.C109_katojones",
    "Verif.C109_invbat",
    "Verif.C109_invbat_uniform",
    "Verif.C109_invbat_failure",
    "Verif.C109_invbat_improves",
    "Verif.C109_invbat_method"
   ],
   "note": "Optimisers are parameters. Inverse Batschelet: relative to the tabulated density, kappa ≤ 340."
  },
  {
   "property": "C110",
   "status": "proved",
   "theorems": [
    "Verif.C110_density",
    "Verif.C110_reflection",
    "Verif.C110_vonmises",
    "Verif.C110_uniform"
   ],
   "note": "Full away from the tolerances; root finder is a parameter."
  },
  {
   "property": "C111",
   "status": "proved",
   "theorems": [
    "Verif.C111_density",
    "Verif.C111_cdf",
    "Verif.C111_cdf_end",
    "Verif.C111_ppf",
    "Verif.C111_ppf_ends",
    "Verif.C111_moments",
    "Verif.C111_overflow"
   ],
   "note": "Full over ℝ; the inverse beta function is a parameter assumed exact; the overflow statement uses a separate model of double-precision range (values above floatMax become inf)."
  },
  {
   "property": "C112",
   "status": "proved",
   "theorems": [
    "Verif.C112_density",
    "Verif.C112_spec",
    "Verif.C112_negative",
    "Verif.C112_far_below",
    "Verif.C112_cdf",
    "Verif.C112_cdf_end",
    "Verif.C112_ppf",
    "Verif.C112_moments",
    "Verif.C112_fit_negative"
   ],
   "note": "Full over ℝ; the inverse normal distribution function and the wide fallback of ppf are parameters. The window size that the likelihood objective caches during optimisation is modelled as an arbitrary fixed function with values ≥ 5."
  },
  {
   "property": "C113",
   "status": "proved",
   "theorems": [
    "Verif.Props.C113_empty",
    "Verif.Props.C113_statistic",
    "Verif.Props.C113_range",
    "Verif.Props.C113_zero_iff",
    "Verif.Props.C113_order",
    "Verif.Props.C113_rotate",
    "Verif.Props.C113_rotate_default",
    "Verif.Props.C113_default",
    "Verif.Props.C113_reflect",
    "Verif.Props.C113_reflect_fails",
    "Verif.Props.C113_symmetric"
   ],
   "note": "Full over ℝ; scipy's wilcoxon is modelled up to its two-sided p-value, which is a parameter depending on the number of zeros, the ranks and the two rank sums."
  },
  {
   "property": "C114",
   "status": "proved",
   "theorems": [
    "Verif.Props.C114_refused",
    "Verif.Props.C114_statistic",
    "Verif.Props.C114_all_zero",
    "Verif.Props.C114_nonneg",
    "Verif.Props.C114_max",
    "Verif.Props.C114_order",
    "Verif.Props.C114_scale",
    "Verif.Props.C114_empty_bin"
   ],
   "note": "Full over ℝ; the chi-square tail is a parameter."
  },
  {
   "property": "C115",
   "status": "proved",
   "theorems": [
    "Verif.C115_moments",
    "Verif.C115_moments_one",
    "Verif.C115_accurate",
    "Verif.C115_normal",
    "Verif.C115_cauchy",
    "Verif.C115_rotate",
    "Verif.C115_reflect",
    "Verif.C115_negative",
    "Verif.C115_far_below",
    "Verif.C115_jump",
    "Verif.C115_cdf",
    "Verif.C115_ppf",
    "Verif.C115_cdf_drops",
    "Verif.C115_fit_moments"
   ],
   "note": "Full over ℝ; the parameter cache is keyed by the exact parameters and left out. Python's round in the unwrapping of the second phase rounds halves to even, the model to the larger neighbour (only the choice of the multiple of 2π at a tie)."
  },
  {
   "property": "C116",
   "status": "proved",
   "theorems": [
    "Verif.C116_density",
    "Verif.C116_mode",
    "Verif.C116_nested",
    "Verif.C116_cdf_monotone",
    "Verif.C116_cdf_error",
    "Verif.C116_small_kappa",
    "Verif.C116_small_kappa_ppf",
    "Verif.C116_ppf"
   ],
   "note": "Full over ℝ; quad_vec is the exact integral. The error bounds of cdf and ppf exclude directions xi for which an angle of the table falls in the last 1e-14 before 2π."
  },
  {
   "property": "C117",
   "status": "proved",
   "theorems": [
    "Verif.Props.C117_mean",
    "Verif.Props.C117_kappa",
    "Verif.Props.C117_mixed",
    "Verif.Props.C117_mean_understates",
    "Verif.Props.C117_mixed_understates",
    "Verif.Props.C117_unidentified",
    "Verif.Props.C117_mean_scalar",
    "Verif.Props.C117_scalar"
   ],
   "note": "The matrix inverse is a parameter assumed exact on regular matrices. For 'kappa' and 'mixed' the loop is assumed to have stopped by its tolerance; otherwise the code combines the concentrations of one pass with the coefficients of the next."
  },
  {
   "property": "C118",
   "status": "proved",
   "theorems": [
    "Verif.Props.C118_components",
    "Verif.Props.C118_unchanged",
    "Verif.Props.C118_shrunk",
    "Verif.Props.C118_mle_ignored"
   ],
   "note": "Full over ℝ; optimiser, k-means labels and random labels are parameters; a nan start is a failing one and a nan initial component raises ValueError."
  },
  {
   "property": "C119",
   "status": "proved",
   "theorems": [
    "Verif.Props.C119_unique",
    "Verif.Props.C119_hac",
    "Verif.Props.C119_kmeans",
    "Verif.Props.C119_metric_free",
    "Verif.Props.C119_unfitted",
    "Verif.Props.C119_geodesic_fails",
    "Verif.Props.C119_refit_fails",
    "Verif.Props.C119_grid",
    "Verif.Props.C119_grid_fails"
   ],
   "note": "Full, negative parts included; centres are assumed defined (an undefined one is treated in C63)."
  },
  {
   "property": "C120",
   "status": "proved",
   "theorems": [
    "Verif.Props.C120_times",
    "Verif.Props.C120_refused",
    "Verif.Props.C120_sign"
   ],
   "note": "Full; `float` is any function that reads digit strings."
  },
  {
   "property": "C121",
   "status": "proved",
   "theorems": [
    "Verif.Props.C121_same_fit",
    "Verif.Props.C121_precedence",
    "Verif.Props.C121_refused",
    "Verif.Props.C121_arrays",
    "Verif.Props.C121_checked"
   ],
   "note": "Full; whitespace is any set of characters without ~ and +, columns are lists of optional numbers, the numerical fit is a parameter."
  },
  {
   "property": "C122",
   "status": "proved",
   "theorems": [
    "Verif.Props.C122_seeded",
    "Verif.Props.C122_generator",
    "Verif.Props.C122_random_state",
    "Verif.Props.C122_interleaved",
    "Verif.Props.C122_reseed",
    "Verif.Props.C122_reseed_ignored",
    "Verif.Props.C122_reseed_differs"
   ],
   "note": "Full, negative part included; generators and samplers are parameters, scipy's rvs is taken from its source."
  },
  {
   "property": "C123",
   "status": "proved",
   "theorems": [
    "Verif.Props.C123_frozen",
    "Verif.Props.C123_vonmises_fails",
    "Verif.Props.C123_refused",
    "Verif.Props.C123_order"
   ],
   "note": "Full, negative part included; parameter values are arbitrary, frozen distributions pass size and random_state by name as scipy does."
  },
  {
   "property": "C124",
   "status": "proved",
   "theorems": [
    "Verif.Props.C124_merged",
    "Verif.Props.C124_refused",
    "Verif.Props.C124_true",
    "Verif.Props.C124_spine"
   ],
   "note": "Full; an entry that is a dictionary inside a dictionary on both sides (there is none in the defaults) is modelled but left open in the statement."
  },
  {
   "property": "C125",
   "status": "proved",
   "theorems": [
    "Verif.Props.C125_points",
    "Verif.Props.C125_rose",
    "Verif.Props.C125_rose_default",
    "Verif.Props.C125_arc",
    "Verif.Props.C125_arc_middle",
    "Verif.Props.C125_arc_degenerate",
    "Verif.Props.C125_arc_axial",
    "Verif.Props.C125_hours",
    "Verif.Props.C125_points_cut",
    "Verif.Props.C125_lines",
    "Verif.Props.C125_arc_median",
    "Verif.Props.C125_counts",
    "Verif.Props.C125_counts_rotation",
    "Verif.Props.C125_custom",
    "Verif.Props.C125_custom_refused"
   ],
   "note": "Full, negative parts included; a plot is the list of its drawing calls, colours and styles are left out, the named binning rules of numpy are not modelled."
  },
  {
   "property": "C126",
   "status": "proved",
   "theorems": [
    "Verif.Props.C126_median",
    "Verif.Props.C126_grouped_density",
    "Verif.Props.C126_grouped_default",
    "Verif.Props.C126_grouped_works",
    "Verif.Props.C126_scatter",
    "Verif.Props.C126_works"
   ],
   "note": "Full, negative parts included; the calls made before an exception are not kept."
  },
  {
   "property": "C127",
   "status": "proved",
   "theorems": [
    "Verif.Props.C127_first",
    "Verif.Props.C127_auto",
    "Verif.Props.C127_auto_run",
    "Verif.Props.C127_choice",
    "Verif.Props.C127_accepts",
    "Verif.Props.C127_current",
    "Verif.Props.C127_unknown",
    "Verif.Props.C127_falls"
   ],
   "note": "Full, the negative part included; `C127_falls` is a witness on seven observations whose densities are all positive, everything else is for all inputs."
  },
  {
   "property": "C128",
   "status": "proved",
   "theorems": [
    "Verif.Props.C128_unfitted",
    "Verif.Props.C128_mean",
    "Verif.Props.C128_kappa",
    "Verif.Props.C128_mixed",
    "Verif.Props.C128_pvalue",
    "Verif.Props.C128_sign",
    "Verif.Props.C128_no_se",
    "Verif.Props.C128_mean_understates",
    "Verif.Props.C128_unidentified"
   ],
   "note": "`norm.cdf` is assumed exact; for 'kappa' and 'mixed' the loop is assumed to have stopped by its tolerance (as in C117)."
  },
  {
   "property": "C129",
   "status": "proved",
   "theorems": [
    "Verif.Props.C129_rows",
    "Verif.Props.C129_curve",
    "Verif.Props.C129_names"
   ],
   "note": "Full, the negative part included; what lstsq returns is arbitrary."
  },
  {
   "property": "C130",
   "status": "proved",
   "theorems": [
    "Verif.Props.C130_exists",
    "Verif.Props.C130_units",
    "Verif.Props.C130_mean",
    "Verif.Props.C130_test",
    "Verif.Props.C130_unprintable"
   ],
   "note": "The numbers are modelled, not the text around them or their rounding."
  },
  {
   "property": "C131",
   "status": "proved",
   "theorems": [
    "Verif.Props.C131_entries",
    "Verif.Props.C131_reuse",
    "Verif.Props.C131_binned_second_call_fails",
    "Verif.Props.C131_grouped_second_call_fails",
    "Verif.Props.C131_witness",
    "Verif.Props.C131_early_failure"
   ],
   "note": "Full, the negative part included; values of the dictionary are strings."
  },
  {
   "property": "C132",
   "status": "proved",
   "theorems": [
    "Verif.C132_log",
    "Verif.C132_isf",
    "Verif.C132_interval",
    "Verif.C132_interval_misses_zero",
    "Verif.C132_interval_antimode",
    "Verif.C132_nnlf",
    "Verif.C132_nnlf_loc",
    "Verif.C132_vonmises_nnlf"
   ],
   "note": "Full; scipy's generic interval and nnlf as documented; the inversion property of ppf is the hypothesis proved for the families in C82. Negative parts have proofs."
  },
  {
   "property": "C133",
   "status": "proved",
   "theorems": [
    "Verif.Props.C133_heights",
    "Verif.Props.C133_center_inversion",
    "Verif.Props.C133_dendrogram",
    "Verif.Props.C133_not_connected"
   ],
   "note": "Full; titles, labels and styles of the drawing are not modelled. Negative parts have proofs."
  },
  {
   "property": "C134",
   "status": "proved",
   "theorems": [
    "Verif.Props.C134_hac",
    "Verif.Props.C134_kmeans",
    "Verif.Props.C134_kmeans_order",
    "Verif.Props.C134_hac_order_fails",
    "Verif.Props.C134_movm",
    "Verif.Props.C134_vonmises"
   ],
   "note": "Full; the drawn starting points or groups are parameters. Negative part has a proof."
  },
  {
   "property": "C135",
   "status": "proved",
   "theorems": [
    "Verif.Props.C135_kappa_mle",
    "Verif.Props.C135_mle_exists"
   ],
   "note": "Full; the Bessel functions are their integrals."
  },
  {
   "property": "C136",
   "status": "proved",
   "theorems": [
    "Verif.Props.C136_kuiper_level",
    "Verif.Props.C136_watson_level",
    "Verif.Props.C136_rao_level",
    "Verif.Props.C136_kuiper_exact",
    "Verif.Props.C136_watson_exact",
    "Verif.Props.C136_rao_exact",
    "Verif.Props.C136_rayleigh_level",
    "Verif.Props.C136_rayleigh_exact",
    "Verif.Props.C136_rao_grouped_fails",
    "Verif.Props.C136_angular_randomisation_level",
    "Verif.Props.C136_range_level"
   ],
   "note": "Full; the generator is modelled by independent uniform draws (product measure), random permutations as equally likely. The failure for grouped data has a proof."
  },
  {
   "property": "C137",
   "status": "proved",
   "theorems": [
    "Verif.Props.C137_binomial_level",
    "Verif.Props.C137_batschelet_level",
    "Verif.Props.C137_batschelet_blind",
    "Verif.Props.C137_omnibus_fails"
   ],
   "note": ""
  },
  {
   "property": "C138",
   "status": "proved",
   "theorems": [
    "Verif.Props.C138_wheeler_two",
    "Verif.Props.C138_wheeler_many",
    "Verif.Props.C138_chisquare",
    "Verif.Props.C138_rayleigh",
    "Verif.Props.C138_watson",
    "Verif.Props.C138_correlation",
    "Verif.Props.C138_range",
    "Verif.Props.C138_rao",
    "Verif.Props.C138_v",
    "Verif.Props.C138_watson_two"
   ],
   "note": ""
  },
  {
   "property": "C139",
   "status": "proved",
   "theorems": [
    "Verif.Props.C139_share",
    "Verif.Props.C139_one_each",
    "Verif.Props.C139_bound",
    "Verif.Props.C139_cd",
    "Verif.Props.C139_cd_one_each"
   ],
   "note": ""
  },
  {
   "property": "C140",
   "status": "proved",
   "theorems": [
    "Verif.Props.C140_watson",
    "Verif.Props.C140_kuiper"
   ],
   "note": "Negative: proved failure for evenly spaced directions; positive part: Watson's p-value is not negative."
  }
 ]
}