{"id": "C01", "title": "angmod is the unique normalisation", "statement": "angmod(x, [lo,hi]) lies in [lo,hi), differs from x by a whole number of periods hi-lo, and is the only number with these two properties; so it is idempotent and unchanged when whole periods are added to x. Bounds that do not consist of exactly two increasing numbers raise ValueError, and nothing else does.", "quantifier": "for all real angles and all bounds lists", "why_tests_cant": "The claim ranges over a continuum of real inputs; tests only sample finitely many of them. The upper end of the range is the classic off-by-one.", "anchors": ["pycircstat2/utils.py:angmod"]}
{"id": "C02", "title": "data2rad and rad2data are inverse", "statement": "For every non-zero full cycle k, rad2data(data2rad(x,k),k)=x and data2rad(rad2data(a,k),k)=a; data2rad maps the full cycle to 2π, is additive, and turns shifts by whole cycles into shifts by whole turns. rad2data without k is the identity.", "quantifier": "for all data values and all non-zero cycle lengths", "why_tests_cant": "The claim ranges over a continuum of real inputs; tests only sample finitely many of them.", "anchors": ["pycircstat2/utils.py:data2rad", "pycircstat2/utils.py:rad2data"]}
{"id": "C03", "title": "rotate_data is a group action of rotations", "statement": "rotate_data returns values in [0,cycle); rotating by 0 only normalises; rotating by a then b equals rotating by a+b; rotating back recovers the (normalised) data; a unit other than degree/radian/hour raises ValueError.", "quantifier": "for all data arrays, all rotations, all units", "why_tests_cant": "The claim ranges over a continuum of real inputs; tests only sample finitely many of them.", "anchors": ["pycircstat2/utils.py:rotate_data", "pycircstat2/utils.py:angmod"]}
{"id": "C04", "title": "angular_distance is the arc-length metric", "statement": "angular_distance is in [0,π], symmetric, zero exactly when the angles agree modulo 2π, obeys the triangle inequality, ignores whole turns in either argument, and its cosine is the cosine of the difference.", "quantifier": "for all pairs/triples of real angles", "why_tests_cant": "The claim ranges over a continuum of real inputs; tests only sample finitely many of them.", "anchors": ["pycircstat2/utils.py:angular_distance"]}
{"id": "C05", "title": "significance_code is a monotone threshold code", "statement": "The code returned depends only on which of the half-open ranges (-∞,.001),[.001,.01),[.01,.05),[.05,.1),[.1,∞) the p value is in, and never gets stronger as p grows. significance() of a test result gives the code of the named p-value, None exactly if there is no such number, and the same empty code for p ≥ 0.1 and for nan.", "quantifier": "for all real p values and all results", "why_tests_cant": "The claim ranges over a continuum of real inputs; tests only sample finitely many of them. Ties at thresholds decide.", "anchors": ["pycircstat2/utils.py:significance_code", "pycircstat2/hypothesis.py:TestResult.significance"]}
{"id": "C06", "title": "is_within_circular_range is arc membership", "statement": "The check is true exactly when walking counter-clockwise from lb to ub (an arc of length (ub-lb) mod 2π) passes value; it is unchanged when all three angles are rotated together or when whole turns are added to any of them; and every angle is inside [lb,ub] or inside [ub,lb] when lb and ub are different directions.", "quantifier": "for all real values and bounds", "why_tests_cant": "The claim ranges over a continuum of real inputs; tests only sample finitely many of them. Wrap-around at 0 is the failure point.", "anchors": ["pycircstat2/utils.py:is_within_circular_range"]}
{"id": "C07", "title": "resultant length lies in [0,1] and is the mean vector length", "statement": "For non-negative weights with positive total, circ_r is the length of the weighted average of the unit vectors of the angles, lies in [0,1], and equals 1 exactly when all angles with positive weight agree modulo 2π. Total weight 0 gives nan.", "quantifier": "for all samples of any size and all weights", "why_tests_cant": "The claim ranges over a continuum of real inputs; tests only sample finitely many of them.", "anchors": ["pycircstat2/descriptive.py:circ_r", "pycircstat2/descriptive.py:compute_C_and_S"]}
{"id": "C08", "title": "resultant length invariances", "statement": "circ_r does not change under a common rotation, reflection, adding whole turns to individual observations, reordering observations together with their weights, or multiplying all weights by a non-zero constant.", "quantifier": "for all samples, rotations, permutations, scalings", "why_tests_cant": "The claim ranges over a continuum of real inputs; tests only sample finitely many of them.", "anchors": ["pycircstat2/descriptive.py:circ_r"]}
{"id": "C09", "title": "frequency weights mean repetition", "statement": "circ_r, circ_mean_and_r and circ_moment computed with integer weights equal the unweighted results on the sample in which each angle is repeated weight-many times (np.repeat).", "quantifier": "for all samples and all natural-number weights", "why_tests_cant": "The claim ranges over a continuum of real inputs; tests only sample finitely many of them.", "anchors": ["pycircstat2/descriptive.py:compute_C_and_S", "pycircstat2/descriptive.py:circ_moment"]}
{"id": "C10", "title": "circular mean: range, nan rule and rotation equivariance", "statement": "circ_mean is nan exactly when the resultant length is at most 1e-8 (circ_mean_and_r: 1e-12), otherwise it lies in [0,2π), rotating the sample rotates the mean by the same amount modulo 2π, and reflecting negates it.", "quantifier": "for all weighted samples and rotations", "why_tests_cant": "The claim ranges over a continuum of real inputs; tests only sample finitely many of them.", "anchors": ["pycircstat2/descriptive.py:circ_mean", "pycircstat2/descriptive.py:circ_mean_and_r"]}
{"id": "C11", "title": "circular mean maximises the cosine sum", "statement": "When circ_mean is not nan, it maximises the weighted sum of cos(alpha-theta) over all theta; the maximum value is (total weight)*(resultant length) and every other maximiser differs by whole turns.", "quantifier": "for all weighted samples, over all theta", "why_tests_cant": "The claim ranges over a continuum of real inputs; tests only sample finitely many of them. Optimality over a continuum cannot be enumerated.", "anchors": ["pycircstat2/descriptive.py:circ_mean"]}
{"id": "C12", "title": "combining group means", "statement": "circ_mean_and_r_of_means applied to the means and resultant lengths of equally sized groups returns the resultant length and mean of the pooled sample.", "quantifier": "for all families of equal-size groups with defined means", "why_tests_cant": "The claim ranges over a continuum of real inputs; tests only sample finitely many of them.", "anchors": ["pycircstat2/descriptive.py:circ_mean_and_r_of_means", "pycircstat2/descriptive.py:circ_mean_and_r"]}
{"id": "C13", "title": "trigonometric moment laws", "statement": "|circ_moment(p)| ≤ 1; rotating the sample by t multiplies the p-th moment by exp(i p t); reflection conjugates it; the moment about a mean m is exp(-i p m) times the raw moment; the first centred moment is real and equals the resultant length.", "quantifier": "for all weighted samples, orders p, rotations", "why_tests_cant": "The claim ranges over a continuum of real inputs; tests only sample finitely many of them.", "anchors": ["pycircstat2/descriptive.py:circ_moment", "pycircstat2/descriptive.py:compute_C_and_S"]}
{"id": "C14", "title": "dispersion, skewness and kurtosis are shape statistics", "statement": "circ_dispersion is unchanged by rotation and reflection; circ_skewness and circ_kurtosis of a sample with non-zero resultant length are unchanged by rotating the sample; reflection leaves kurtosis unchanged and negates skewness, so a sample symmetric about some axis has skewness 0. With resultant length 0 the returned skewness and kurtosis depend on the orientation of the sample.", "quantifier": "for all weighted samples and rotations", "why_tests_cant": "The claim ranges over a continuum of real inputs; tests only sample finitely many of them.", "anchors": ["pycircstat2/descriptive.py:circ_dispersion", "pycircstat2/descriptive.py:circ_skewness", "pycircstat2/descriptive.py:circ_kurtosis"]}
{"id": "C15", "title": "variance and standard deviation ranges", "statement": "Without binning, circ_var=1-r in [0,1], angular_var=2(1-r) in [0,2], angular_std=sqrt(2(1-r)), circ_std=sqrt(-2 ln r) is non-negative, strictly decreasing in r, and r=exp(-circ_std²/2); the bin correction multiplies r by the factor b/(2 sin(b/2)) > 1 for bin width b in (0,2π), so a sample concentrated in one bin gets a negative variance and nan standard deviations.", "quantifier": "for all r in (0,1] and all bin widths", "why_tests_cant": "The claim ranges over a continuum of real inputs; tests only sample finitely many of them.", "anchors": ["pycircstat2/descriptive.py:circ_var", "pycircstat2/descriptive.py:circ_std", "pycircstat2/descriptive.py:angular_var", "pycircstat2/descriptive.py:angular_std"]}
{"id": "C16", "title": "chunked mean deviation equals the direct one", "statement": "circ_mean_deviation_chunked returns the same vector as circ_mean_deviation for every positive chunk size; non-positive chunk sizes raise ValueError.", "quantifier": "for all arrays and all chunk sizes", "why_tests_cant": "Every array length/chunk size combination must be covered, including non-dividing ones.", "anchors": ["pycircstat2/descriptive.py:circ_mean_deviation_chunked", "pycircstat2/descriptive.py:circ_mean_deviation"]}
{"id": "C17", "title": "geodesic distance formula versus arc length", "statement": "The formula π-|π-|x-y|| used by circ_dist(metric='geodesic'), circ_mean_deviation and circ_pairdist equals the arc-length distance whenever |x-y| ≤ 2π; outside that range it differs, can be negative, and is not invariant under whole turns.", "quantifier": "for all pairs of real angles", "why_tests_cant": "The claim ranges over a continuum of real inputs; tests only sample finitely many of them.", "anchors": ["pycircstat2/descriptive.py:circ_dist", "pycircstat2/descriptive.py:circ_mean_deviation"]}
{"id": "C18", "title": "deviation median returns minimising observations", "statement": "With method='deviation', the candidate medians are exactly the observations whose (rounded) mean deviation from the sample is minimal; nan is returned exactly when all observations tie.", "quantifier": "for all non-empty samples", "why_tests_cant": "The claim ranges over a continuum of real inputs; tests only sample finitely many of them.", "anchors": ["pycircstat2/descriptive.py:_circ_median_mean_deviation", "pycircstat2/descriptive.py:circ_median"]}
{"id": "C19", "title": "count median returns most balanced observations", "statement": "With method='count', candidates are exactly the observations whose diameter splits the sample most evenly (with boundary points counted half on each side), nan exactly when all observations tie.", "quantifier": "for all non-empty samples", "why_tests_cant": "The claim ranges over a continuum of real inputs; tests only sample finitely many of them.", "anchors": ["pycircstat2/descriptive.py:_circ_median_count"]}
{"id": "C20", "title": "dispersion confidence interval contains the mean", "statement": "The interval returned by circ_mean_ci(method='dispersion') always contains the mean and is symmetric about it; n<25 and over-dispersed data raise ValueError.", "quantifier": "for all samples and all non-negative normal quantiles", "why_tests_cant": "The claim ranges over a continuum of real inputs; tests only sample finitely many of them.", "anchors": ["pycircstat2/descriptive.py:_circ_mean_ci_dispersion"]}
{"id": "C21", "title": "approximate confidence interval contains the mean", "statement": "For n≥8, whenever the resultant is not rejected, the cosine argument used by method='approximate' is between 0 and 1 (r ≤ 0.9 branch), so the half width is in [0,π/2], the interval is symmetric about the mean and contains it; n<8 and small r raise ValueError.", "quantifier": "for all n, r, chi-square quantiles in range", "why_tests_cant": "The claim ranges over a continuum of real inputs; tests only sample finitely many of them.", "anchors": ["pycircstat2/descriptive.py:_circ_mean_ci_approximate"]}
{"id": "C22", "title": "bootstrap confidence interval contains the bootstrap mean", "statement": "Whatever the resamples are, the interval returned by method='bootstrap' contains the circular mean of the bootstrap replicates when that mean is defined and the two end points are different directions.", "quantifier": "for all resampling outcomes", "why_tests_cant": "The property must hold for every random draw.", "anchors": ["pycircstat2/descriptive.py:_circ_mean_ci_bootstrap", "pycircstat2/descriptive.py:compute_hdi"]}
{"id": "C23", "title": "median confidence interval for large samples", "statement": "For n>15 the median interval, when returned, has endpoints that are observations and contains the median; the index arithmetic can leave the array (index equal to n), which raises IndexError instead of wrapping.", "quantifier": "for all samples with n>15", "why_tests_cant": "Index arithmetic near the end of the array is rarely hit by samples.", "anchors": ["pycircstat2/descriptive.py:circ_median_ci"]}
{"id": "C24", "title": "HDI covers the requested mass and is shortest", "statement": "compute_hdi returns end points of an arc starting and ending at samples, containing at least max(1,⌊ci n⌋) samples, and no arc of a run of that many consecutive samples is shorter; ci outside (0,1) or no data raises ValueError.", "quantifier": "for all sample lists and all ci", "why_tests_cant": "The claim ranges over a continuum of real inputs; tests only sample finitely many of them.", "anchors": ["pycircstat2/descriptive.py:compute_hdi"]}
{"id": "C25", "title": "circ_dist metrics are mutually consistent", "statement": "'center' is the signed difference in (-π,π] congruent to x-y; |center| is the arc-length distance; angularseparation = 1-cos(x-y) in [0,2]; chord² = 2·angularseparation and chord = 2 sin(|center|/2); all but geodesic ignore whole turns; an unknown metric raises ValueError.", "quantifier": "for all pairs of angles and all metric names", "why_tests_cant": "The claim ranges over a continuum of real inputs; tests only sample finitely many of them.", "anchors": ["pycircstat2/descriptive.py:circ_dist", "pycircstat2/descriptive.py:circ_pairdist"]}
{"id": "C26", "title": "circular range is the shortest covering arc", "statement": "circ_range is 2π minus the largest gap: there is an arc of that length containing all observations modulo 2π and no shorter arc does; it is in [0,2π(1-1/n)] and invariant under rotation, reordering and whole turns.", "quantifier": "for all non-empty samples", "why_tests_cant": "The claim ranges over a continuum of real inputs; tests only sample finitely many of them.", "anchors": ["pycircstat2/descriptive.py:circ_range"]}
{"id": "C27", "title": "circular quantiles", "statement": "circ_quantile returns values in [0,2π); with a defined median m the result is m plus the linear quantile of the deviations wrapped to (-π,π]; quantiles at 0 and 1 are extreme deviations; nan median gives nan for every probability.", "quantifier": "for all samples and probabilities", "why_tests_cant": "The claim ranges over a continuum of real inputs; tests only sample finitely many of them.", "anchors": ["pycircstat2/descriptive.py:circ_quantile"]}
{"id": "C28", "title": "kappa estimator", "statement": "circ_kappa(r) is non-negative and strictly increasing on each of its three branches for r in [0,1); it agrees with A1inv there; at r=1 it collapses to 1e-16 although it tends to infinity for r→1; small-sample correction never exceeds the uncorrected value for r<0.7.", "quantifier": "for all r and n", "why_tests_cant": "The claim ranges over a continuum of real inputs; tests only sample finitely many of them.", "anchors": ["pycircstat2/descriptive.py:circ_kappa", "pycircstat2/utils.py:A1inv"]}
{"id": "C29", "title": "kernel density estimate", "statement": "nonparametric_density_estimation (before the radius transform) is non-negative, periodic end to end (value at 0 equals value at 2π for data in [0,2π]) and never looks further than h from a data point. The curve drawn from it lies outside the circle, and the area between circle and curve is proportional to the estimate: for h at most π and data in [0,2π], altogether half the area of the circle. The bandwidth of compute_smooth_params for a positive kappa is sqrt(7/kappa)/n^(1/5).", "quantifier": "for all samples and bandwidths h>0", "why_tests_cant": "The claim ranges over a continuum of real inputs; tests only sample finitely many of them.", "anchors": ["pycircstat2/descriptive.py:nonparametric_density_estimation", "pycircstat2/descriptive.py:compute_smooth_params"]}
{"id": "C30", "title": "Rayleigh test p value", "statement": "For r in [0,1] and n≥1 the analytic p value is in (0,1], equals 1 exactly when r=0, and strictly decreases in r; z=n r²; invalid B, n or r raise ValueError.", "quantifier": "for all n and r", "why_tests_cant": "The claim ranges over a continuum of real inputs; tests only sample finitely many of them.", "anchors": ["pycircstat2/hypothesis.py:rayleigh_test"]}
{"id": "C31", "title": "Monte-Carlo p values are never zero", "statement": "Every simulated p value (rayleigh, kuiper, watson, rao spacing, angular randomisation) with B draws is k/(B+1) for an integer 1≤k≤B+1, counts exactly the draws at least as extreme as the observed statistic, and does not increase when the observed statistic grows.", "quantifier": "for all random draws, B, observed statistics", "why_tests_cant": "Holds for every random outcome.", "anchors": ["pycircstat2/hypothesis.py:rayleigh_test", "pycircstat2/hypothesis.py:kuiper_test", "pycircstat2/hypothesis.py:watson_test", "pycircstat2/hypothesis.py:rao_spacing_test", "pycircstat2/hypothesis.py:angular_randomisation_test"]}
{"id": "C32", "title": "V test", "statement": "V equals the sum of cos(alpha-angle), |V| ≤ R ≤ n; V, u are invariant when data and hypothesised angle rotate together; p value decreases as V grows.", "quantifier": "for all samples and angles", "why_tests_cant": "The claim ranges over a continuum of real inputs; tests only sample finitely many of them.", "anchors": ["pycircstat2/hypothesis.py:V_test"]}
{"id": "C33", "title": "one-sample test decision", "statement": "one_sample_test rejects exactly when the hypothesised angle lies outside the counter-clockwise arc from lb to ub, so it never rejects the sample mean when lb, ub come from the dispersion/approximate interval.", "quantifier": "for all angles and intervals", "why_tests_cant": "The claim ranges over a continuum of real inputs; tests only sample finitely many of them.", "anchors": ["pycircstat2/hypothesis.py:one_sample_test"]}
{"id": "C34", "title": "Hodges-Ajne omnibus test", "statement": "m is the minimum over the scanned diameters of the number of observations not strictly on one side; when n>2m the p value equals (n-2m)·C(n,m)/2^(n-1) and A=π√n/(2(n-2m)); when n ≤ 2m the code reports p=0 although the data are maximally balanced; only one side of each scanned line is counted, so the p value is not invariant under rotation of the data by π.", "quantifier": "for all samples and scales", "why_tests_cant": "The claim ranges over a continuum of real inputs; tests only sample finitely many of them.", "anchors": ["pycircstat2/hypothesis.py:omnibus_test"]}
{"id": "C35", "title": "Batschelet test count", "statement": "C is the number of observations that are not within the open half circle centred on angle, it is invariant under joint rotation, and C(angle)+C(angle+π) ≥ n with equality when no observation lies on the boundary diameter.", "quantifier": "for all samples and angles", "why_tests_cant": "The claim ranges over a continuum of real inputs; tests only sample finitely many of them.", "anchors": ["pycircstat2/hypothesis.py:batschelet_test"]}
{"id": "C36", "title": "Watson-Williams statistic is non-negative", "statement": "The resultant of the pooled sample never exceeds the sum of group resultants, so F ≥ 0; F is invariant under a common rotation and under reordering groups; fewer than two samples or N ≤ k raise ValueError.", "quantifier": "for all families of samples", "why_tests_cant": "The claim ranges over a continuum of real inputs; tests only sample finitely many of them.", "anchors": ["pycircstat2/hypothesis.py:watson_williams_test"]}
{"id": "C37", "title": "circular ANOVA decomposition", "statement": "In circ_anova(F-test) SS_between+SS_within=SS_total, all three are non-negative, df add up, and the LRT sum Σ R_i(1-cos(mu_i-mu_all)) equals Σ R_i - R_all; with either method table and decision do not change when all observations are turned by one angle or when the samples are listed in another order.", "quantifier": "for all families of samples", "why_tests_cant": "The claim ranges over a continuum of real inputs; tests only sample finitely many of them.", "anchors": ["pycircstat2/hypothesis.py:circ_anova"]}
{"id": "C38", "title": "two-sample Watson U² needs sorted samples", "statement": "For samples listed in increasing order (distinct values further apart than the closeness tolerance) the U² value is Watson's statistic of the two empirical distribution functions, non-negative, symmetric in the samples and rotation invariant; for an unsorted sample the call raises ValueError; the reported p value can be 2.", "quantifier": "for all pairs of samples", "why_tests_cant": "The claim ranges over a continuum of real inputs; tests only sample finitely many of them.", "anchors": ["pycircstat2/hypothesis.py:watson_u2_test"]}
{"id": "C39", "title": "uniform-scores statistic", "statement": "The Wheeler-Watson statistic is non-negative; without ties it is the uniform-scores statistic, invariant under a common rotation, and it does not depend on the order in which the samples are listed; with ties it does depend on that.", "quantifier": "for all lists of samples without ties", "why_tests_cant": "The claim ranges over a continuum of real inputs; tests only sample finitely many of them.", "anchors": ["pycircstat2/hypothesis.py:wheeler_watson_test"]}
{"id": "C40", "title": "Wallraff statistic", "statement": "U1+U2=n1 n2, 0 ≤ U ≤ n1 n2/2, U is the smaller Mann-Whitney count of the arc distances, and swapping the two samples or rotating data and reference angles together leaves U and the p value unchanged (unit weights); for weighted samples U is not the count of the observations the weights stand for.", "quantifier": "for all pairs of samples", "why_tests_cant": "The claim ranges over a continuum of real inputs; tests only sample finitely many of them.", "anchors": ["pycircstat2/hypothesis.py:wallraff_test"]}
{"id": "C41", "title": "Kuiper statistic is rotation invariant", "statement": "For data in [0,2π), V is unchanged when all observations are rotated (and re-wrapped), and is unchanged by reordering; V>0.", "quantifier": "for all samples and rotations", "why_tests_cant": "The claim ranges over a continuum of real inputs; tests only sample finitely many of them.", "anchors": ["pycircstat2/hypothesis.py:kuiper_test"]}
{"id": "C42", "title": "Watson one-sample U² is rotation invariant", "statement": "For data in [0,2π), U² is unchanged by rotation (with re-wrapping) and reordering and is at least 1/(12n).", "quantifier": "for all samples and rotations", "why_tests_cant": "The claim ranges over a continuum of real inputs; tests only sample finitely many of them.", "anchors": ["pycircstat2/hypothesis.py:watson_test"]}
{"id": "C43", "title": "Rao spacing statistic", "statement": "For data in [0,2π) the spacings are non-negative and sum to 2π; 0 ≤ U ≤ 2π(1-1/n); U=0 exactly for equally spaced data; U is rotation and order invariant.", "quantifier": "for all samples", "why_tests_cant": "The claim ranges over a continuum of real inputs; tests only sample finitely many of them.", "anchors": ["pycircstat2/hypothesis.py:rao_spacing_test"]}
{"id": "C44", "title": "binomial median test", "statement": "n1+n2=n_eff ≤ n, where n1/n2 count observations with negative/positive signed distance from the median; p is in (0,1] and unchanged by rotating data and median together, and by reflecting data about the median unless an observation lies exactly opposite to it (such an observation always counts as positive).", "quantifier": "for all samples and medians", "why_tests_cant": "The claim ranges over a continuum of real inputs; tests only sample finitely many of them.", "anchors": ["pycircstat2/hypothesis.py:binomial_test"]}
{"id": "C45", "title": "concentration test is symmetric", "statement": "Swapping the two samples inverts the F statistic, swaps the degrees of freedom and, unless F is exactly 1 with samples of different sizes, leaves the p value unchanged; turning either sample changes nothing; a sample of fewer than two observations, or with all observations in one direction, raises ValueError and nothing else does.", "quantifier": "for all pairs of samples", "why_tests_cant": "The claim ranges over a continuum of real inputs; tests only sample finitely many of them.", "anchors": ["pycircstat2/hypothesis.py:concentration_test"]}
{"id": "C46", "title": "Rao homogeneity statistics are non-negative", "statement": "With positive per-sample variances both H statistics are weighted sums of squares about the weighted mean, hence non-negative, zero exactly when all group values coincide; each hypothesis is rejected exactly when its statistic exceeds its critical value; the dispersion statistic is unchanged when samples are turned, and the polar statistic cannot see a sample turned by half a circle; the order of the samples is irrelevant. Turning all samples together should not matter for the comparison of mean directions, but does: for every critical value some pair of samples is rejected, and not rejected after everything is turned by 30 degrees.", "quantifier": "for all families of samples", "why_tests_cant": "The claim ranges over a continuum of real inputs; tests only sample finitely many of them.", "anchors": ["pycircstat2/hypothesis.py:rao_homogeneity_test"]}
{"id": "C47", "title": "change-point scan", "statement": "rmax is the largest gain in resultant length over all splits and k_r the first split attaining it; 0 ≤ rave ≤ rmax; the likelihood scan is maximal at k_t and is nan exactly when some segment has a single direction; rotating the sequence changes nothing and reversing it keeps rho, rmax and rave; n<4 raises ValueError.", "quantifier": "for all sequences", "why_tests_cant": "The claim ranges over a continuum of real inputs; tests only sample finitely many of them.", "anchors": ["pycircstat2/hypothesis.py:change_point_test"]}
{"id": "C48", "title": "Harrison-Kanji decomposition", "statement": "In the large-kappa table with interaction the sums of squares and the degrees of freedom of A, B, interaction and residual add up to the total; main effects and residual are non-negative; the interaction is non-negative for balanced layouts and can be negative otherwise; without interaction the degrees of freedom add up only when there is one observation per cell; the low-concentration table ignores the interaction option. The order of the observations, the names of the levels and a common rotation change nothing, and exchanging the factors only exchanges the two main effects.", "quantifier": "for all two-way layouts with no empty cell", "why_tests_cant": "The claim ranges over a continuum of real inputs; tests only sample finitely many of them.", "anchors": ["pycircstat2/hypothesis.py:harrison_kanji_test"]}
{"id": "C49", "title": "equal-kappa regimes", "statement": "Exactly one regime applies, chosen by the pooled resultant length; in the small and moderate regimes the statistic is a weighted sum of squares about the weighted mean, non-negative when all group sizes exceed 4 (and possibly negative otherwise, or nan when a group is too concentrated); in the large regime it is Bartlett's statistic, non-negative by concavity of log; degenerate groups raise ValueError. Turning all observations together or reordering the samples changes nothing. Turning the samples separately, which leaves their concentrations alone, should change nothing either; this holds only while the pooled sample stays in the same regime: two copies of a concentrated sample give statistic 0, and nan when one copy points the opposite way.", "quantifier": "for all families of samples", "why_tests_cant": "The claim ranges over a continuum of real inputs; tests only sample finitely many of them.", "anchors": ["pycircstat2/hypothesis.py:equal_kappa_test"]}
{"id": "C50", "title": "common median test", "statement": "P equals Pearson's chi-square of the 2×k table of observations below/not below the common median, so P ≥ 0; the test is undefined exactly when all observations are on one side; the median is reported as nan exactly when H0 is rejected. Turning all observations turns the common median and changes nothing else, and the order of samples and observations is irrelevant, for samples that do not coincide up to the tolerance of circ_median.", "quantifier": "for all families of samples", "why_tests_cant": "The claim ranges over a continuum of real inputs; tests only sample finitely many of them.", "anchors": ["pycircstat2/hypothesis.py:common_median_test"]}
{"id": "C51", "title": "Fisher-Lee correlation", "statement": "r is in [-1,1], symmetric in a and b, unchanged by rotating a or b and by the order of the pairs, negated by reflecting one of them, and 1 exactly when the sines of all pairwise differences are proportional (so for b=a); the test rejects exactly when 0 is outside the jackknife interval; mismatched, too short or degenerate inputs raise ValueError and nothing else does.", "quantifier": "for all paired samples", "why_tests_cant": "The claim ranges over a continuum of real inputs; tests only sample finitely many of them.", "anchors": ["pycircstat2/correlation.py:_circ_corrcc_fl"]}
{"id": "C52", "title": "Jammalamadaka-SenGupta correlation", "statement": "r is the ordinary correlation of the sines of the deviations from the mean directions: in [-1,1], symmetric, unchanged by rotating either variable, negated by reflecting one, 1 for a variable with itself; it is nan exactly when a variable has no mean direction; ValueError is raised exactly for unequal or too small sizes, degenerate data and, in strict mode, samples whose mean is not significant.", "quantifier": "for all paired samples", "why_tests_cant": "The claim ranges over a continuum of real inputs; tests only sample finitely many of them.", "anchors": ["pycircstat2/correlation.py:_circ_corrcc_js"]}
{"id": "C53", "title": "rank circular correlation", "statement": "The nonparametric coefficient is in [-1,1], symmetric in its arguments, unchanged by strictly increasing transformations of either variable, by a change of the zero direction and by the order of the pairs, negated when one variable's order is reversed, and 1 for a variable without ties with itself. (Its test rejects only for positive coefficients: a perfect association of variables that turn in opposite ways is never detected, however many pairs there are.)", "quantifier": "for all paired samples", "why_tests_cant": "The claim ranges over a continuum of real inputs; tests only sample finitely many of them.", "anchors": ["pycircstat2/correlation.py:_circ_corrcc_np"]}
{"id": "C54", "title": "circular-linear correlation", "statement": "When defined, circ_corrcl is the multiple correlation of x with cos a and sin a (1-r² is the least fraction of the variation left by a fit), so in [0,1] and unchanged by affine rescaling of x and rotation of the angles; the cases of nan and ValueError are exactly characterised, and which of them occurs can change under rotation.", "quantifier": "for all paired samples", "why_tests_cant": "The claim ranges over a continuum of real inputs; tests only sample finitely many of them.", "anchors": ["pycircstat2/correlation.py:circ_corrcl"]}
{"id": "C55", "title": "circular-circular regression output", "statement": "Fitted angles are in [0,2π); residuals are in (-π,π] and fitted+residual is congruent to the response; rho is in [0,1]; results depend on the inputs only modulo 2π; order<1 or level outside (0,1) raises ValueError.", "quantifier": "for all data and all least-squares solutions", "why_tests_cant": "The claim ranges over a continuum of real inputs; tests only sample finitely many of them.", "anchors": ["pycircstat2/regression.py:CCRegression._fit", "pycircstat2/regression.py:CCRegression._validate_input"]}
{"id": "C56", "title": "circular-linear regression loop", "statement": "The reported log-likelihood, mu and kappa are those evaluated at the reported coefficients exactly when the loop stopped by the tolerance test; when it stops by max_iter they belong to the previous coefficients.", "quantifier": "for all update functions and iteration counts", "why_tests_cant": "Depends on the loop history, not on a fixed input.", "anchors": ["pycircstat2/regression.py:CLRegression._fit"]}
{"id": "C57", "title": "information criteria", "statement": "AIC/BIC count exactly the fitted coefficients of the model type; BIC-AIC = n_params(ln n - 2); mixture BICs use 3k-1, 5k-1 and k·m+k-1 parameters.", "quantifier": "for all fitted models", "why_tests_cant": "The claim ranges over a continuum of real inputs; tests only sample finitely many of them.", "anchors": ["pycircstat2/regression.py:CLRegression.AIC", "pycircstat2/regression.py:CLRegression.BIC", "pycircstat2/clustering.py:MovM.compute_BIC", "pycircstat2/clustering.py:MoCD.bic", "pycircstat2/clustering.py:MoKJ.compute_BIC"]}
{"id": "C58", "title": "mixture responsibilities are probabilities", "statement": "After any number of EM iterations mixing weights are non-negative and sum to 1, every responsibility column sums to 1, and every concentration is at least 1e-3, for whatever component density values.", "quantifier": "for all data, initialisations, iteration counts", "why_tests_cant": "Invariant over iteration histories.", "anchors": ["pycircstat2/clustering.py:MovM.fit", "pycircstat2/clustering.py:MovM.predict_proba", "pycircstat2/clustering.py:MoCD.fit"]}
{"id": "C59", "title": "EM stopping rule", "statement": "The loop runs at most n_iters iterations, never reports convergence at or before the burn-in index, converged_iters equals the number of likelihood values recorded, and on a new object convergence is reported exactly when a recorded value after the burn-in is within threshold of its predecessor; fitting an object again does not reset the convergence attributes, so they can describe an earlier fit.", "quantifier": "for all likelihood sequences", "why_tests_cant": "Quantifies over all histories of likelihood values.", "anchors": ["pycircstat2/clustering.py:MovM.fit", "pycircstat2/clustering.py:MoCD.fit", "pycircstat2/clustering.py:MoKJ.fit"]}
{"id": "C60", "title": "mixture density integrates to one", "statement": "predict_density is a convex combination of component densities: non-negative and of total mass 1 over one turn whenever the components are. MoCD.score is the mean logarithm of this density at the given observations, up to 1e-32 divided by the smallest weight.", "quantifier": "for all mixtures", "why_tests_cant": "The claim ranges over a continuum of real inputs; tests only sample finitely many of them.", "anchors": ["pycircstat2/clustering.py:MovM.predict_density", "pycircstat2/clustering.py:MoCD.predict_density", "pycircstat2/clustering.py:MoCD.score"]}
{"id": "C61", "title": "hierarchical clustering yields a partition", "statement": "fit assigns every observation exactly one label in 0..k-1, every label is used, the number of clusters is n_clusters when starting from singletons unless at most one of the remaining clusters has a defined mean direction, and merges_ records exactly n-k merges each joining two live clusters with the recorded size.", "quantifier": "for all data and all distance functions", "why_tests_cant": "Invariant over merge histories.", "anchors": ["pycircstat2/clustering.py:CircHAC.fit"]}
{"id": "C62", "title": "hierarchical clustering merges the closest pair", "statement": "Each merge joins a pair of clusters whose distance is minimal under the comparison the code uses; for metric 'center' that comparison is on signed distances, so the merged pair need not be the closest pair.", "quantifier": "for all states of the merge loop", "why_tests_cant": "The claim ranges over a continuum of real inputs; tests only sample finitely many of them.", "anchors": ["pycircstat2/clustering.py:CircHAC.fit"]}
{"id": "C63", "title": "k-means labels", "statement": "Every label is a nearest centre of the previous centres, labels are in 0..k-1, inertia is the sum of distances to the reported centres; predict returns nearest reported centres and equals labels_ exactly when every label is that of a nearest reported centre, which can fail at the iteration limit; an undefined centre attracts every angle; with fewer observations than clusters predict raises IndexError.", "quantifier": "for all data, seeds, iteration counts", "why_tests_cant": "Invariant over iteration histories.", "anchors": ["pycircstat2/clustering.py:CircKMeans.fit", "pycircstat2/clustering.py:CircKMeans.predict"]}
{"id": "C64", "title": "silhouette score range", "statement": "The silhouette score is in [-1,1] whenever at least two clusters exist and undefined otherwise (zero for fewer than two observations); the own-cluster average includes the point itself, contrary to the comment in the code, so every value is at least the textbook silhouette.", "quantifier": "for all labelled data", "why_tests_cant": "The claim ranges over a continuum of real inputs; tests only sample finitely many of them.", "anchors": ["pycircstat2/clustering.py:CircHAC.silhouette_score"]}
{"id": "C65", "title": "Circular constructor decision table", "statement": "The mean CI method is bootstrap exactly for p<0.05 and 8≤n<25, dispersion exactly for p<0.05 and n≥25, none otherwise; units other than degree/radian/hour without full_cycle raise ValueError.", "quantifier": "for all n, p, units", "why_tests_cant": "The claim ranges over a continuum of real inputs; tests only sample finitely many of them.", "anchors": ["pycircstat2/base.py:Circular.__init__"]}
{"id": "C66", "title": "axial data identify opposite directions", "statement": "Axial doubling maps x and x+half-cycle to the same doubled datum; the reported axial mean lies in [0,π) and is congruent to half the mean of doubled angles; rotating data by t rotates the axial mean by t modulo π.", "quantifier": "for all data and units", "why_tests_cant": "The claim ranges over a continuum of real inputs; tests only sample finitely many of them.", "anchors": ["pycircstat2/base.py:Axial.__init__"]}
{"id": "C67", "title": "distribution wrappers are 2π-periodic", "statement": "pdf, logpdf, cdf and sf give the same value at x and x+2πk, unless one of them is within 2π·eps of 2π; there x is moved to 2π itself, so cdf jumps from 1 to 0 across the seam while pdf (for a periodic density) does not change; sf is 1-cdf everywhere.", "quantifier": "for all x, integers k, shape parameters", "why_tests_cant": "The claim ranges over a continuum of real inputs; tests only sample finitely many of them.", "anchors": ["pycircstat2/distributions.py:CircularContinuous._wrap_angles", "pycircstat2/distributions.py:CircularContinuous.pdf"]}
{"id": "C68", "title": "location and scale cannot be smuggled in", "statement": "As keywords, any loc other than 0, any scale other than 1 and any floc/fscale/fix_loc/fix_scale raise TypeError (values within np.isclose tolerance of the default are silently ignored); shape parameters given partly by position and partly by name are assigned correctly, and conflicts raise TypeError. Given by position, however, loc and scale are not refused: they reach scipy and shift or rescale the density, so that the total mass on the circle is no longer 1.", "quantifier": "for all argument combinations", "why_tests_cant": "The claim ranges over a continuum of real inputs; tests only sample finitely many of them.", "anchors": ["pycircstat2/distributions.py:CircularContinuous._clean_loc_scale_kwargs", "pycircstat2/distributions.py:CircularContinuous._separate_shape_parameters"]}
{"id": "C69", "title": "normaliser cache is transparent", "statement": "For every history of calls the cached normaliser equals the freshly computed one for the same parameters, provided the builder is deterministic.", "quantifier": "for all call histories", "why_tests_cant": "Quantifies over histories.", "anchors": ["pycircstat2/distributions.py:CircularContinuous._get_cached_normalizer"]}
{"id": "C70", "title": "numerical cdf accumulation", "statement": "The generic integral cdf returns values in [0,1], is monotone in x, 0 at or below the lower end, 1 at or above the upper end, and does not depend on the order of the query points (exact quadrature, non-negative pdf, gaps above the 1e-15 tolerance).", "quantifier": "for all query vectors and densities", "why_tests_cant": "The claim ranges over a continuum of real inputs; tests only sample finitely many of them.", "anchors": ["pycircstat2/distributions.py:CircularContinuous._cdf_integral"]}
{"id": "C71", "title": "circular uniform distribution", "statement": "pdf is 1/2π, cdf is x/2π on [0,2π], ppf inverts it, total mass is 1.", "quantifier": "for all x and q", "why_tests_cant": "The claim ranges over a continuum of real inputs; tests only sample finitely many of them.", "anchors": ["pycircstat2/distributions.py:circularuniform_gen"]}
{"id": "C72", "title": "triangular distribution", "statement": "For 0≤rho≤4/π² the pdf is non-negative with total mass 1; the cdf is the integral of the pdf from 0, runs from 0 to 1 monotonically; cdf(ppf(q))=q for q in [0,1) up to end clipping.", "quantifier": "for all rho, x, q", "why_tests_cant": "The claim ranges over a continuum of real inputs; tests only sample finitely many of them.", "anchors": ["pycircstat2/distributions.py:triangular_gen"]}
{"id": "C73", "title": "cardioid distribution", "statement": "For 0≤rho≤1/2 the pdf is non-negative with total mass 1, the cdf is its integral, cdf(0)=0, cdf(2π)=1, monotone; mean resultant length is rho.", "quantifier": "for all mu, rho, x", "why_tests_cant": "The claim ranges over a continuum of real inputs; tests only sample finitely many of them.", "anchors": ["pycircstat2/distributions.py:cardioid_gen"]}
{"id": "C74", "title": "cardioid ppf accuracy", "statement": "For every q in [0,1] the quantile returned satisfies |cdf(ppf(q))-q| ≤ 2^-31 no matter how Newton's iterations behave, and lies in [0,2π]; q outside [0,1] gives nan.", "quantifier": "for all mu, rho, q", "why_tests_cant": "Newton can diverge on inputs no test hits; the bisection fallback must always catch it.", "anchors": ["pycircstat2/distributions.py:cardioid_gen._ppf", "pycircstat2/distributions.py:cardioid_gen._solve_inverse_cdf"]}
{"id": "C75", "title": "wrapped Cauchy distribution", "statement": "For 0≤rho<1 the pdf is positive with total mass 1 and resultant rho at mu; cdf is its integral from 0 for rho ≤ 1-1e-6 up to 2π-7e-5; ppf inverts that integral up to 1e-14. Closer to 2π cdf is 1 whatever the mass still to come, and where the mass to come is below 1e-12 cdf can be 0.", "quantifier": "for all mu, rho, x, q", "why_tests_cant": "The claim ranges over a continuum of real inputs; tests only sample finitely many of them.", "anchors": ["pycircstat2/distributions.py:wrapcauchy_gen"]}
{"id": "C76", "title": "von Mises distribution", "statement": "The pdf is exp(κcos(x-μ))/(2πI0(κ)): positive, total mass 1, largest at and symmetric about mu, with logpdf its logarithm; resultant length I1/I0 in (0,1), mean direction mu; var and std follow from it; half the mass lies within half a turn of mu. The series cdf is within 1.6e-11 of the integral of the pdf for 1e-9 ≤ kappa ≤ 2500 up to x = 2π-7e-5 (within 3e-9 for kappa < 1e-9); above that it jumps to 1. The implemented entropy is not -∫f ln f: it increases with kappa where the entropy decreases.", "quantifier": "for all mu, kappa and x in the stated range", "why_tests_cant": "The claim ranges over a continuum of real inputs; tests only sample finitely many of them.", "anchors": ["pycircstat2/distributions.py:vonmises_gen"]}
{"id": "C77", "title": "sine-skewed density", "statement": "For |lambda|≤1 the sine-skewed Jones-Pewsey density is the symmetric density times 1+lambda·sin(x-xi), is non-negative and has total mass 1; with lambda=0 density and cdf are those of the symmetric family; the cdf is within (1+|lambda|)·(2e-9 plus four times the cosine moments beyond order 256) of the exact distribution function; accepted samples follow the skewed density. Failures: for kappa below 1e-3 the cdf counts the arc from xi instead of from 0 and the quantile ignores lambda and xi; lambda=±1 is accepted by pdf but refused by rvs.", "quantifier": "for all parameters", "why_tests_cant": "The claim ranges over a continuum of real inputs; tests only sample finitely many of them.", "anchors": ["pycircstat2/distributions.py:jonespewsey_sineskewed_gen._pdf", "pycircstat2/distributions.py:jonespewsey_sineskewed_gen._cdf", "pycircstat2/distributions.py:jonespewsey_sineskewed_gen._ppf", "pycircstat2/distributions.py:jonespewsey_sineskewed_gen._rvs"]}
{"id": "C78", "title": "Kato-Jones density is a density", "statement": "Whenever the parameter check accepts (gamma,rho,lambda) exactly ((rho cosλ-gamma)²+(rho sinλ)² ≤ (1-gamma)²), pdf is the Kato-Jones density, which is non-negative with total mass 1 (rho ≤ 1-4e-8), and trig_moment(p) is its p-th trigonometric moment for every p; the constraint cannot be weakened: parameters that violate it give negative values, and violations above 1e-12 are refused.", "quantifier": "for all parameters and x", "why_tests_cant": "The claim ranges over a continuum of real inputs; tests only sample finitely many of them.", "anchors": ["pycircstat2/distributions.py:katojones_gen._pdf", "pycircstat2/distributions.py:katojones_gen._argcheck"]}
{"id": "C79", "title": "Kato-Jones parameter conversions are inverse", "statement": "convert_alpha2_beta2 and convert_rho_lambda are mutually inverse for gamma>0, rho in [0,1), with lambda recovered modulo 2π when gamma·rho>1e-12 (below that it is reported as 0); the verification tolerances of the two do not match, so verified moments can yield parameters that fail verification; the auxiliary (s,phi) coordinates used for fitting always yield exactly feasible parameters and determine (rho,lambda).", "quantifier": "for all parameters", "why_tests_cant": "The claim ranges over a continuum of real inputs; tests only sample finitely many of them.", "anchors": ["pycircstat2/distributions.py:katojones_gen.convert_alpha2_beta2", "pycircstat2/distributions.py:katojones_gen.convert_rho_lambda", "pycircstat2/distributions.py:katojones_gen._aux_from_rho_lam", "pycircstat2/distributions.py:katojones_gen._rho_lam_from_aux"]}
{"id": "C80", "title": "Kato-Jones cdf matches its pdf", "statement": "For 1e-12<rho≤0.995 cdf is within 1e-12 of the integral of the density wherever that integral is not within 1e-12 of 0 or 1, and everywhere (up to 2π-7e-5, and strictly increasing) when the density is at least 2e-9; for densities that touch 0 it fails: the truncated series dips below 0 and is wrapped to almost 1; for rho ≤ 1e-12 and gamma>0 cdf is uniform although the density is not.", "quantifier": "for all parameters", "why_tests_cant": "The claim ranges over a continuum of real inputs; tests only sample finitely many of them.", "anchors": ["pycircstat2/distributions.py:katojones_gen._cdf", "pycircstat2/distributions.py:katojones_gen._compute_series_terms"]}
{"id": "C81", "title": "tabulated distribution functions", "statement": "The cdf methods that work from a table of density values are distribution functions for pdf: for the flat-topped von Mises family with 1e-9<kappa≤300 cdf is 0 at 0, 1 at 2π, in [0,1], monotone, and within (kappa+1)(1+|nu|)²·f(mu)/1000 of the integral of pdf. Beyond that it fails: at kappa=1000 the floor put under the tabulated density makes cdf fall from at least 1/2 to 0 inside one turn. For the inverse Batschelet family with kappa ≤ 340, whatever was computed before, cdf is within 5π/128 times the peak density (plus 1e-8) of the integral of the fresh pdf, or it is 0 where that integral is within the same bound of 1.", "quantifier": "for all parameters and angles", "why_tests_cant": "The claim ranges over a continuum of real inputs; tests only sample finitely many of them.", "anchors": ["pycircstat2/distributions.py:vonmises_flattopped_gen._cdf", "pycircstat2/distributions.py:_build_vmft_table", "pycircstat2/distributions.py:inverse_batschelet_gen._cdf", "pycircstat2/distributions.py:_build_invbat_table"]}
{"id": "C82", "title": "bracketed quantile solvers", "statement": "Safeguarded Newton/bisection quantile solvers keep the target bracketed at every step and end with a residual below 1e-12 or within initial width/2^n of a point where the cdf crosses the target; for a monotone Lipschitz cdf the result therefore has probability close to the target.", "quantifier": "for all monotone cdfs, all densities used for the Newton step", "why_tests_cant": "Newton steps are arbitrary.", "anchors": ["pycircstat2/distributions.py:vonmises_gen._ppf", "pycircstat2/distributions.py:wrapnorm_gen._ppf", "pycircstat2/distributions.py:katojones_gen._ppf"]}
{"id": "C83", "title": "estimators return valid parameters", "statement": "Every estimate returned by the fit methods of triangular, cardioid, Cartwright, wrapped Cauchy, wrapped normal, von Mises, Jones-Pewsey, sine-skewed Jones-Pewsey, flat-topped von Mises and inverse Batschelet is accepted by the distribution's own argument check, whatever the optimiser does; for Kato-Jones this holds except when the estimated mean direction is exactly 2π, which its own check refuses; negative weights, weights whose number is neither 1 nor that of the data, weights without mass and missing data raise ValueError; the maximum likelihood estimate of the triangular distribution really maximises the likelihood (over rho up to 4/π²-1e-12) when the root finder finds a root of the score.", "quantifier": "for all samples and weights", "why_tests_cant": "The claim ranges over a continuum of real inputs; tests only sample finitely many of them.", "anchors": ["pycircstat2/distributions.py:triangular_gen.fit", "pycircstat2/distributions.py:cardioid_gen.fit", "pycircstat2/distributions.py:wrapcauchy_gen.fit", "pycircstat2/distributions.py:vonmises_gen.fit", "pycircstat2/distributions.py:katojones_gen.fit", "pycircstat2/distributions.py:jonespewsey_gen.fit", "pycircstat2/distributions.py:jonespewsey_sineskewed_gen.fit", "pycircstat2/distributions.py:inverse_batschelet_gen.fit"]}
{"id": "C84", "title": "inverse Batschelet densities and earlier calls", "statement": "What pdf answers should not depend on what the distribution object has computed before. It does: the table behind cdf, ppf, rvs and fit overwrites the shared normalising constant of (kappa, lmbd), so after one cdf call with kappa=700, nu=0, lmbd=1 every later pdf value for kappa=700, lmbd=1, at every angle, direction and nu, is at most 5/9 of what a fresh object answers, until the cache is cleared. After any history of calls the constant in use is positive and either the fresh one or the one of a table built for some nu, and pdf values for different histories differ by a factor that does not depend on the angle, direction or nu; for kappa ≤ 340 this factor differs from 1 by at most π/128 times the peak density; histories without tables for the same (kappa, lmbd) change nothing.", "quantifier": "for all angles, directions, nu and call histories", "why_tests_cant": "Needs a specific call history; quantifies over histories.", "anchors": ["pycircstat2/distributions.py:inverse_batschelet_gen._pdf", "pycircstat2/distributions.py:_get_invbat_table"]}
{"id": "C85", "title": "median does not depend on the order of the data", "statement": "When the resultant length is below 1-1e-5-1e-12 the median candidates and their average are the same for every reordering of the sample (up to reordering of the candidate list); in the 'all points coincide' shortcut, taken for concentrated samples, the result is the first datum as given, so it does depend on order.", "quantifier": "for all samples and permutations", "why_tests_cant": "The claim ranges over a continuum of real inputs; tests only sample finitely many of them.", "anchors": ["pycircstat2/descriptive.py:circ_median"]}
{"id": "C86", "title": "grouped median halves the histogram", "statement": "For counts in an even number of equal bins around the circle, a single returned median halves the histogram: the half circles before and after it each hold half of the counts (spread evenly over their bins), and it lies in a bin with more counts than the opposite one. With an odd number of bins the computation can raise IndexError on plain data, and with several half-frequency bins the average can be the middle of an empty bin opposite to the data.", "quantifier": "for all bin numbers, counts and first bin centres; for any bins the single median lies within one bin width above a bin's upper bound", "why_tests_cant": "The claim ranges over a continuum of real inputs; tests only sample finitely many of them.", "anchors": ["pycircstat2/descriptive.py:_circ_median_grouped", "pycircstat2/descriptive.py:circ_median"]}
{"id": "C87", "title": "bootstrap studentising matrix", "statement": "The matrix that the bootstrap mean interval uses to studentise resampled (cos, sin) means is a square root of the sample covariance matrix of (cos, sin) exactly when the cosines and sines are uncorrelated; for every sample with non-negligible covariance it is not, because the discriminant divides by 4u12^2+1 instead of adding 1 after the division; with the published formula it always is.", "quantifier": "for all samples", "why_tests_cant": "The claim ranges over a continuum of real inputs; tests only sample finitely many of them.", "anchors": ["pycircstat2/descriptive.py:_circ_mean_ci_bootstrap", "pycircstat2/descriptive.py:_circ_mean_resample"]}
{"id": "C88", "title": "weighted samples stand for repeated observations", "statement": "Every multi-sample test that accepts (angles, weights) treats the pair as the sample in which each angle occurs as often as its weight says: group size, resultant length and total are those of the expanded sample; weights must be non-negative, close to integers and not all zero and the angle list non-empty, otherwise ValueError.", "quantifier": "for all angle and weight lists", "why_tests_cant": "The claim ranges over a continuum of real inputs; tests only sample finitely many of them.", "anchors": ["pycircstat2/hypothesis.py:_coerce_circular_sample", "pycircstat2/hypothesis.py:_coerce_circular_samples"]}
{"id": "C89", "title": "angular randomisation statistic", "statement": "For data in [0,2π) the observed statistic of the angular randomisation test is √(nm/(n+m)) times the sum of all between-sample arc distances; it is non-negative, does not depend on which sample is listed first, and is unchanged by a common rotation (with re-wrapping, in any order).", "quantifier": "for all pairs of samples in [0,2π), all rotations", "why_tests_cant": "The claim ranges over a continuum of real inputs; tests only sample finitely many of them.", "anchors": ["pycircstat2/hypothesis.py:angular_randomisation_test"]}
{"id": "C90", "title": "Rao spacing test frequencies", "statement": "Whole-number frequencies stand for repeated observations: statistic and p value are those of the expanded sample; negative, non-whole or mis-shaped frequencies and all-zero frequencies raise ValueError; frequencies within the np.isclose tolerance of a whole number are accepted but truncated, so 0.999999 counts as zero.", "quantifier": "for all angle and frequency lists", "why_tests_cant": "The claim ranges over a continuum of real inputs; tests only sample finitely many of them.", "anchors": ["pycircstat2/hypothesis.py:rao_spacing_test"]}
{"id": "C91", "title": "circular range test", "statement": "The statistic is the length of the shortest arc containing the data; the p value is exactly the probability that as many independent uniform directions fit in an arc no longer than the observed one; it lies in [0,1], does not decrease when the range grows (same sample size), equals n(r/2π)^(n-1) when the data fit in a half circle, and is unchanged by rotation and reordering; empty data and angles outside [-2π,2π] raise ValueError.", "quantifier": "for all samples, all rotations", "why_tests_cant": "The claim ranges over a continuum of real inputs; tests only sample finitely many of them.", "anchors": ["pycircstat2/hypothesis.py:circ_range_test"]}
{"id": "C92", "title": "converged circular-linear regressions solve their score equations", "statement": "Coefficients left unchanged by an update step of circular-linear regression solve the stationarity equations of the von Mises log-likelihood: for model 'mean' up to the 1e-8 ridge term, for model 'kappa' exactly in the scores of alpha and gamma, for model 'mixed' in the scores of alpha and gamma; the update of beta in model 'mixed' does not have this property, since it uses sin(theta-mu) instead of the sine of the residual, although a perfect fit is left unchanged up to the ridge.", "quantifier": "for all data, coefficients and exact linear solves", "why_tests_cant": "The claim ranges over a continuum of real inputs; tests only sample finitely many of them.", "anchors": ["pycircstat2/regression.py:CLRegression._fit"]}
{"id": "C93", "title": "mixture BIC uses the likelihood of the fitted data", "statement": "BIC of a fitted mixture is computed from the log-likelihood of the very data (in radians) that were fitted: true for von Mises and Kato-Jones mixtures and for generic mixtures given radians; a generic mixture with unit 'degree' converts its already converted data a second time, so its BIC belongs to other data.", "quantifier": "for all fitted mixtures", "why_tests_cant": "The claim ranges over a continuum of real inputs; tests only sample finitely many of them.", "anchors": ["pycircstat2/clustering.py:MoCD.bic", "pycircstat2/clustering.py:MoCD.score_samples", "pycircstat2/clustering.py:MovM.compute_BIC"]}
{"id": "C94", "title": "EM passes do not lower the likelihood", "statement": "When the component fit is a weighted maximum likelihood estimator, no EM pass of a generic mixture lowers the log-likelihood by more than n·K·1e-32·ln(1e32+1) (the effect of the 1e-32 offsets), so neither does any run of passes by more than that times the number of passes.", "quantifier": "for all data, weights, component families, numbers of passes", "why_tests_cant": "Quantifies over all data sets and all component families with a maximum likelihood fit.", "anchors": ["pycircstat2/clustering.py:MoCD.fit"]}
{"id": "C95", "title": "k-means under angular separation does not raise its inertia", "statement": "With metric 'angularseparation' the mean direction minimises the within-cluster total, each pass lowers the inertia or leaves it, and allowing one more iteration never raises inertia_, as long as the centres are defined.", "quantifier": "for all data, initial indices, iteration limits, tolerances", "why_tests_cant": "Quantifies over all data and run lengths.", "anchors": ["pycircstat2/clustering.py:CircKMeans.fit"]}
{"id": "C96", "title": "binning by the constructor", "statement": "Data binned by `bins` have sample size equal to the number of angles between the first and the last edge; angles outside (for example negative degrees, although -10° and 350° are the same direction) are silently dropped.", "quantifier": "for all data, bin edges, units", "why_tests_cant": "The claim ranges over a continuum of real inputs; tests only sample finitely many of them.", "anchors": ["pycircstat2/base.py:Circular.__init__"]}
{"id": "C97", "title": "medians of Circular objects", "statement": "An object of plain observations carries at most one median, with an interval exactly when the median is a number; grouped objects carry no interval; with return_average=False several tied candidates (even repetitions of one and the same observation) make the constructor raise ValueError.", "quantifier": "for all data and options", "why_tests_cant": "The claim ranges over a continuum of real inputs; tests only sample finitely many of them.", "anchors": ["pycircstat2/base.py:Circular.__init__"]}
{"id": "C98", "title": "default interval of the mean is available", "statement": "With p<0.05 and n≥25 the default (dispersion) interval always exists; with 8≤n<25 it fails: grouped or binned data never get one (the bootstrap ignores frequencies and raises ValueError), and plain data can have a Rayleigh p value below 0.05 and still be refused by the bootstrap's own uniformity check.", "quantifier": "for all samples", "why_tests_cant": "The claim ranges over a continuum of real inputs; tests only sample finitely many of them.", "anchors": ["pycircstat2/base.py:Circular.__init__", "pycircstat2/descriptive.py:circ_mean_ci"]}
{"id": "C99", "title": "stats() agrees with the individual methods", "statement": "The dictionary returned by stats() has the same mean, median, r, var, std, dispersion, skewness and kurtosis as the individual methods; r, var, std, dispersion, skewness and kurtosis do not change when the distribution is rotated.", "quantifier": "for all distributions and shape parameters, all rotations", "why_tests_cant": "The claim ranges over a continuum of real inputs; tests only sample finitely many of them.", "anchors": ["pycircstat2/distributions.py:CircularContinuous.stats", "pycircstat2/distributions.py:CircularContinuous.skewness"]}
{"id": "C100", "title": "median() of a distribution", "statement": "median() is the quantile of 1/2 counted from 0, so half of the mass lies between 0 and it; it is not the circular median of the descriptive functions: for every triangular distribution (rho>1e-12) it is exactly opposite the mean direction and has the larger expected arc distance.", "quantifier": "for all families; for all rho", "why_tests_cant": "The claim ranges over a continuum of real inputs; tests only sample finitely many of them.", "anchors": ["pycircstat2/distributions.py:CircularContinuous.median"]}
{"id": "C101", "title": "objective and gradient of likelihood fits agree", "statement": "The objective minimised by a maximum likelihood fit is the weighted negative log-likelihood of the family's own density, and the gradient handed to the optimiser is its gradient: true for the cardioid, wrapped Cauchy and Cartwright fits; the von Mises fit hands over the derivative with respect to mu with the wrong sign, and the Cartwright objective stays finite at an observation opposite to mu, where the density is 0.", "quantifier": "for all data, weights and interior parameters", "why_tests_cant": "The claim ranges over a continuum of real inputs; tests only sample finitely many of them.", "anchors": ["pycircstat2/distributions.py:cardioid_gen.fit", "pycircstat2/distributions.py:wrapcauchy_gen.fit", "pycircstat2/distributions.py:vonmises_gen.fit", "pycircstat2/distributions.py:cartwright_gen.fit"]}
{"id": "C102", "title": "samples follow the distribution", "statement": "The set of uniform draws that produce a sample in [0,x] has Lebesgue measure equal to the probability of [0,x]: for the triangular and cardioid samplers up to the accuracy of the quantile function (1e-12 and 2^-32), for the wrapped Cauchy sampler exactly when 1e-15 < rho < 1-1.1e-5; all samples lie in [0,2π]; for the Cartwright sampler exactly (for beta-distributed and uniform draws), for the wrapped normal sampler exactly (for standard normal draws, 1e-12 < rho ≤ 1-1e-15); for Kato-Jones samplers (density at least 2e-9) up to 1.1e-5 + (1+2γ/(1-ρ))/2^30. Wrapped stable samples have every trigonometric moment of the stable law for alpha=2 and for alpha=1, beta=0; for 1<alpha<2 and beta≠0 they are shifted against pdf: for all small gamma the mean sines about delta differ by at least gamma·|beta·tan(π·alpha/2)|/2. The sampler of the asymmetric Jones-Pewsey family dominates its target at the 2048 grid angles only, so the documented exactness fails when the mode lies between them (kappa=13, psi=-1, nu=0.00153): accepted draws do not have a density proportional to pdf. Von Mises samples (kappa > 1e-9) follow the density exactly: each round of the rejection loop is accepted with the same probability A ≥ 1/8, and the chance that a sample in [0,x] is found within n rounds is (1-(1-A)^n) times the probability of [0,x]; for kappa ≤ 1e-9 they are uniform, within 1e-8 of the density. The sampler of the inverse Batschelet family (kappa ≤ 340) reads its density from a table; the probabilities of accepted draws differ from those of the tabulated density by a factor between q and 1/q, q=min(1, 1.02·exp(-k·2π/N)), k the concentration of its proposals and N the table size, whatever was computed before on the object. The Jones-Pewsey sampler is exact for negative psi, for 1/92 ≤ psi ≤ 40 and for positive psi with kappa²·psi ≤ 23: the density of a proposal times the share of uniform draws accepting it is a constant multiple of pdf; in the limits kappa < 1e-3 and |psi| < 1e-6 samples are uniform and von Mises like the density. The flat-topped von Mises sampler is exact for 1e-6 ≤ kappa·(1+nu)² ≤ 1000: the accepted draws have exactly the probabilities of the flat-topped law; for kappa·(1+nu)² < 1e-6 (nu near -1) up to a factor exp(-2e-6). For rho ≥ 1-1e-5 the wrapped Cauchy sampler returns the mean direction every time although the distribution is not degenerate.", "quantifier": "for all x and shape parameters", "why_tests_cant": "The claim ranges over a continuum of real inputs; tests only sample finitely many of them.", "anchors": ["pycircstat2/distributions.py:triangular_gen._rvs", "pycircstat2/distributions.py:cardioid_gen._rvs", "pycircstat2/distributions.py:wrapcauchy_gen._rvs", "pycircstat2/distributions.py:katojones_gen._rvs", "pycircstat2/distributions.py:cartwright_gen._rvs", "pycircstat2/distributions.py:wrapnorm_gen._rvs", "pycircstat2/distributions.py:wrapstable_gen._rvs", "pycircstat2/distributions.py:_wrapstable_sample_linear", "pycircstat2/distributions.py:jonespewsey_asym_gen._rvs", "pycircstat2/distributions.py:_optimize_vonmises_envelope", "pycircstat2/distributions.py:vonmises_gen._rvs", "pycircstat2/distributions.py:inverse_batschelet_gen._rvs", "pycircstat2/distributions.py:jonespewsey_gen._rvs", "pycircstat2/distributions.py:jonespewsey_gen._jp_sampler_envelope", "pycircstat2/distributions.py:vonmises_flattopped_gen._rvs", "pycircstat2/distributions.py:vonmises_flattopped_gen._get_vmft_sampler_params"]}
{"id": "C103", "title": "Kato-Jones moment estimates match the sample moments", "statement": "When the second trigonometric moment of the sample (seen from its mean direction) is feasible for the family and nothing is clipped, the fitted distribution has exactly the first two trigonometric moments of the weighted sample.", "quantifier": "for all samples and weights", "why_tests_cant": "The claim ranges over a continuum of real inputs; tests only sample finitely many of them.", "anchors": ["pycircstat2/distributions.py:katojones_gen._fit_moments", "pycircstat2/distributions.py:katojones_gen._project_second_order"]}
{"id": "C104", "title": "Jones-Pewsey distribution", "statement": "For a correct Legendre function the density is (cosh(κψ)+sinh(κψ)cos(x-μ))^(1/ψ) divided by its integral: positive, of mass 1, symmetric about μ and largest there; κ below 1e-3 gives the uniform distribution, |ψ| below 1e-6 the von Mises distribution, ψ=1 exactly the cardioid distribution with ρ=tanh(κ)/2 (density and cdf), ψ=-1 the wrapped Cauchy density with ρ=tanh(κ/2). The cdf, a Fourier series of at most 256 terms with coefficients from 4096 density values, is within 2e-9 plus four times the sum of the cosine moments beyond order 256 of the exact distribution function (for ψ=-1: 4ρ^257/(1-ρ)).", "quantifier": "for all centres, κ, ψ with |κψ|≤700 and all angles", "why_tests_cant": "The claim ranges over a continuum of real inputs; tests only sample finitely many of them.", "anchors": ["pycircstat2/distributions.py:jonespewsey_gen._pdf", "pycircstat2/distributions.py:jonespewsey_gen._cdf", "pycircstat2/distributions.py:_c_jonespewsey", "pycircstat2/distributions.py:_jp_series_cumulative"]}
{"id": "C105", "title": "predictions of circular-linear regression", "statement": "After a fit that stopped by its tolerance, predict() on the fitted data gives directions around which the residuals balance (weighted sines cancel, weighted cosines do not add up to a negative number), and the reported log-likelihood is the von Mises log-likelihood around these predictions. Model 'kappa' with default start predicts the fitted mean direction for every predictor value, with another start value of beta it does not. Predictions stay strictly within π of mu, reach every such angle when beta is not zero, increase with the linear predictor, and are not reduced to one turn.", "quantifier": "for all data, models, converged fits and new predictor values", "why_tests_cant": "The claim ranges over a continuum of real inputs; tests only sample finitely many of them.", "anchors": ["pycircstat2/regression.py:CLRegression.predict", "pycircstat2/regression.py:CLRegression._fit"]}
{"id": "C106", "title": "flat-topped von Mises distribution", "statement": "For 0≤kappa≤1000 and |nu|≤1 pdf is positive, continuous, symmetric about mu and largest there, has mass 1 up to 1e-12 and agrees with exp(kappa·cos(t+nu·sin t)) divided by its integral up to a relative error of 1e-12 (3e-9 for kappa ≤ 1e-9, where the uniform density is returned); for kappa ≤ 300, ppf(q) lies in [0,2π] and cdf(ppf(q)) agrees with q (up to an integer, the cut at 0) within the mass of one table cell, 2π/512 times the peak density.", "quantifier": "for all parameters and angles", "why_tests_cant": "The claim ranges over a continuum of real inputs; tests only sample finitely many of them.", "anchors": ["pycircstat2/distributions.py:vonmises_flattopped_gen._pdf", "pycircstat2/distributions.py:_c_vmft"]}
{"id": "C107", "title": "methods of one distribution accept the same parameters", "statement": "pdf, cdf and ppf of one family should accept the same shape parameters; it fails for the flat-topped von Mises family: outside 0≤kappa≤1000 pdf silently uses the nearest end of that range and gives a positive density, while cdf and ppf give nan. The inverse Batschelet family is the other way round: for negative kappa cdf and ppf answer as for kappa=0, while pdf gives nan.", "quantifier": "for all parameters outside the range", "why_tests_cant": "The claim ranges over a continuum of real inputs; tests only sample finitely many of them.", "anchors": ["pycircstat2/distributions.py:vonmises_flattopped_gen.pdf", "pycircstat2/distributions.py:vonmises_flattopped_gen.cdf"]}
{"id": "C108", "title": "rejection samplers terminate in practice", "statement": "Rejection sampling should accept a positive share of its proposals that does not vanish; for the flat-topped von Mises family with nu>0 it does not hold: the expected acceptance probability of one proposal is at most 4·sqrt(k+1)·exp(2kappa-2k+1/2) with k=kappa(1+nu)², for example below e^-55 for kappa=10 and nu=1, and the loop has no bound. The inverse Batschelet sampler centres its proposals at xi instead of the mode xi-2·nu: for lmbd=0, 0<nu≤1/2 and kappa≤340 the mean acceptance probability is at most 160·exp(-(2/5)·kappa·sin²(nu)), below 1e-9 for kappa=300, nu=1/2. The Jones-Pewsey sampler, documented as efficient across the parameter space, accepts on average at most the share Z/(1.02·2π·I0(kappa)), Z the mass of (cosh(kappa·psi)+sinh(kappa·psi)·cos)^(1/psi); for psi=-1 this is 1/(1.02·I0(kappa)), below 1e-10 for kappa=30.", "quantifier": "for all kappa, nu in the stated range", "why_tests_cant": "Tests can only observe that a call has not returned yet.", "anchors": ["pycircstat2/distributions.py:vonmises_flattopped_gen._rvs", "pycircstat2/distributions.py:inverse_batschelet_gen._rvs", "pycircstat2/distributions.py:jonespewsey_gen._rvs"]}
{"id": "C109", "title": "maximum likelihood fits", "statement": "If the optimiser, whenever it reports success, returned a minimum of the objective it was given, the estimate of fit(method='mle') has the largest weighted likelihood of pdf within the bounds (directions moved to 2π by the 1e-15 tolerance are set apart); if it reports failure, fit raises RuntimeError. If it merely returned a point not worse than its start, the estimate is at least as likely as the moment estimate with every shape value of the starting grid. The wrapped normal fit maximises the likelihood of the true wrapped normal density (not of pdf) up to 5e-8 per unit of weight; the inverse Batschelet fit that of the tabulated density up to 2e-9 per unit of weight (kappa ≤ 340), whatever was computed before on the object. fit of that family takes 'MLE' for 'mle' but refuses 'Moments'.", "quantifier": "for all data, weights, bounds and optimisers", "why_tests_cant": "Quantifies over all optimisers and data.", "anchors": ["pycircstat2/distributions.py:jonespewsey_gen.fit", "pycircstat2/distributions.py:jonespewsey_sineskewed_gen.fit", "pycircstat2/distributions.py:jonespewsey_asym_gen.fit", "pycircstat2/distributions.py:vonmises_flattopped_gen.fit", "pycircstat2/distributions.py:katojones_gen._fit_mle", "pycircstat2/distributions.py:wrapnorm_gen.fit", "pycircstat2/distributions.py:inverse_batschelet_gen.fit"]}
{"id": "C110", "title": "inverse Batschelet distribution", "statement": "For 0≤kappa≤700, |nu|≤1 and lmbd=1 or -1≤lmbd≤1 outside the tolerances around ±1, pdf of a fresh object is positive, continuous, of mass 1 up to 1e-11, largest at xi-2nu, and equal up to a relative error of 1e-11 to exp(kappa·cos(u-(1-lmbd)/2·sin u)) divided by the normaliser, u being the solution of the defining equations; changing the sign of nu reflects the density; nu=lmbd=0 gives the von Mises density up to 1e-11, small kappa the uniform density.", "quantifier": "for all parameters and angles, all root finders that find the roots", "why_tests_cant": "The claim ranges over a continuum of real inputs; tests only sample finitely many of them.", "anchors": ["pycircstat2/distributions.py:inverse_batschelet_gen._pdf", "pycircstat2/distributions.py:_c_invbatschelet", "pycircstat2/distributions.py:_tnu", "pycircstat2/distributions.py:_slmbdinv"]}
{"id": "C111", "title": "Cartwright's distribution", "statement": "The density is 2^(1/zeta-1)·Γ(1+1/zeta)²·(1+cos(x-mu))^(1/zeta)/(π·Γ(1+2/zeta)): non-negative, of mass 1, symmetric about mu; cdf is its distribution function from 0 for angles below 2π-6.5e-5, but jumps to 1 before 2π (the tolerance of np.isclose); ppf inverts it for an exact inverse beta function; the moments fit makes the mean resultant length of the distribution that of the sample. In double precision the density is 0 or nan everywhere for zeta ≤ 2/171, which the moments fit does return.", "quantifier": "for all centres, zeta > 0, angles and samples", "why_tests_cant": "The claim ranges over a continuum of real inputs; tests only sample finitely many of them.", "anchors": ["pycircstat2/distributions.py:cartwright_gen._pdf", "pycircstat2/distributions.py:cartwright_gen._cdf", "pycircstat2/distributions.py:cartwright_gen._ppf", "pycircstat2/distributions.py:cartwright_gen.fit"]}
{"id": "C112", "title": "wrapped normal distribution", "statement": "For every rho in (0,1) pdf integrates to 1, has first trigonometric moment rho in direction mu and differs from the sum of the wrapped normal densities by at most rho^900/(π(1-rho^61)); for rho ≤ 0.94 it is a positive density. The series is cut at a fixed number of terms: for rho ≥ 0.96 pdf is negative opposite mu (logpdf nan), for rho ≥ 0.9995 it falls below -1/2 within 1/6 of mu; the fits return such rho. cdf is within 3e-12 of the true distribution function for angles up to 2π-7e-5 and jumps to 1 from 2π-6e-5 on, where up to a fifth of the mass can be missing; ppf inverts it within 3e-12+4e-12 times the peak density; the moments fit gives pdf the first trigonometric moment of the weighted sample.", "quantifier": "for all centres, rho in (0,1), angles and samples", "why_tests_cant": "The claim ranges over a continuum of real inputs; tests only sample finitely many of them.", "anchors": ["pycircstat2/distributions.py:wrapnorm_gen._pdf", "pycircstat2/distributions.py:wrapnorm_gen._cdf", "pycircstat2/distributions.py:wrapnorm_gen._ppf", "pycircstat2/distributions.py:wrapnorm_gen._rvs", "pycircstat2/distributions.py:wrapnorm_gen.fit"]}
{"id": "C113", "title": "symmetry test", "statement": "With n observations not in the direction of the median and W the number of pairs of observations (each may be paired with itself) whose signed deviations in [-π,π) have positive sum, zero sums counting one half, the statistic is min(W, n(n+1)/2-W): between 0 and n(n+1)/4, zero exactly if all observations lie on one side, n(n+1)/4 for a sample that is its own mirror image. Statistic and p-value do not change under reordering, under turning data and median together (also with the median left to the library), or under reflection about the median if no observation is exactly opposite it; with an observation opposite the median reflection does change the statistic. A nan median gives nan, an empty sample ValueError.", "quantifier": "for all samples, medians, rotations and rank-sum p-value functions", "why_tests_cant": "The claim ranges over a continuum of real inputs; tests only sample finitely many of them.", "anchors": ["pycircstat2/hypothesis.py:symmetry_test"]}
{"id": "C114", "title": "chi-square test of grouped data", "statement": "For k non-negative frequencies of total N≠0 the statistic is k/N·Σw²-N: between 0 (exactly for equal frequencies) and N(k-1) (exactly if one bin holds everything); the p-value is the chi-square tail with k-1 degrees of freedom. The order of the bins (the position of the first bin) is irrelevant; scaling the frequencies scales the statistic; adding an empty bin raises the statistic by Σw²/N and the degrees of freedom by one. No bins or a negative frequency raise ValueError, all-zero frequencies give nan.", "quantifier": "for all lists of frequencies", "why_tests_cant": "The claim ranges over a continuum of real inputs; tests only sample finitely many of them.", "anchors": ["pycircstat2/hypothesis.py:chisquare_test"]}
{"id": "C115", "title": "wrapped stable distribution", "statement": "Outside a distance 1e-10 of alpha=1, pdf has mass 1 and its k-th trigonometric moment is exactly that of the stable law (Nolan's S0 parametrisation) as long as k ≤ 20001 and the moment before it is longer than 1e-12, and 0 beyond; alpha=2 gives the wrapped normal and alpha=1, beta=0 the wrapped Cauchy density up to a small explicit error; shifting delta rotates, changing the sign of beta reflects the density. At alpha=1 the sign of beta is reversed, so the density jumps there. The cut series can be negative: opposite delta for alpha=2 whenever the number of terms is odd, and far below 0 near delta for gamma ≤ 1e-6. cdf is the integral of a non-negative pdf up to 2π-7e-5 and 1 from 2π-6e-5 on, but can fall when pdf is negative; ppf inverts it within 6e-9 times the peak density (8e-5 near 2π). The moment fit gives the fitted density exactly the first trigonometric moment of the sample when gamma is not at a bound, and the second when no estimate is at a bound and beta is not 0.", "quantifier": "for all accepted parameters, angles, probabilities and samples", "why_tests_cant": "The claim ranges over a continuum of real inputs; tests only sample finitely many of them.", "anchors": ["pycircstat2/distributions.py:wrapstable_gen._pdf", "pycircstat2/distributions.py:wrapstable_gen._cdf", "pycircstat2/distributions.py:wrapstable_gen._ppf", "pycircstat2/distributions.py:wrapstable_gen.fit"]}
{"id": "C116", "title": "asymmetric Jones-Pewsey distribution", "statement": "The density is the Jones-Pewsey shape at the warped angle φ+ν·cos φ, φ=x-ξ, divided by its integral: positive and of mass 1; ν=0 gives the Jones-Pewsey density, κ below 1e-3 the uniform distribution (density and cdf). There is exactly one mode, at ξ+m with m+ν·cos m=0; for ν>0 it lies before ξ, although the documentation says that ξ typically represents the mode. cdf increases strictly from 0 to 1 and differs from the integral of the density by at most π/1024 times the largest density; the mass up to ppf(q) differs from q by at most 1e-12 plus 0.0031 times the largest density.", "quantifier": "for all directions, κ, ψ with |κψ|≤700, ν in [0,1), all angles and probabilities", "why_tests_cant": "The claim ranges over a continuum of real inputs; tests only sample finitely many of them.", "anchors": ["pycircstat2/distributions.py:jonespewsey_asym_gen._pdf", "pycircstat2/distributions.py:jonespewsey_asym_gen._cdf", "pycircstat2/distributions.py:jonespewsey_asym_gen._ppf", "pycircstat2/distributions.py:_kernel_jonespewsey_asym", "pycircstat2/distributions.py:_c_jonespewsey_asym"]}
{"id": "C117", "title": "standard errors of circular-linear regression", "statement": "The standard errors of beta (models 'mean' and 'mixed') and of alpha and gamma ('kappa' and 'mixed') are the roots of the diagonal of the inverse Fisher information of the von Mises regression about these coefficients, with 1e-8 added to its diagonal; they are positive and at most 1e4. The standard errors of kappa and mu are the reciprocal roots of their own informations, with the factor (n-p)/n for mu in 'mean' and with 1/2 subtracted otherwise. The standard errors of beta treat the estimated mean direction mu as known: they are strictly smaller than the asymptotic ones whenever mu and beta can be estimated together, and with a constant predictor, where beta cannot be estimated at all, they still shrink to zero.", "quantifier": "for all numbers of observations and predictors, all predictors and coefficients, all concentrations ≥ 0", "why_tests_cant": "The claim ranges over a continuum of real inputs; tests only sample finitely many of them.", "anchors": ["pycircstat2/regression.py:CLRegression._compute_standard_errors", "pycircstat2/regression.py:_safe_inverse"]}
{"id": "C118", "title": "components of a fitted Kato-Jones mixture", "statement": "Whenever MoKJ.fit returns parameters, the weights are positive with sum 1, every component lies strictly inside the Kato-Jones family, and predict_density is a positive density of mass 1 (per radian), whatever the optimiser did. The clean-up of estimates leaves parameters that keep its margins unchanged, except that for gamma ≥ 0.978 it pulls the second moment towards the edge of the disc again and again; likelihood estimates with gamma ≥ 1-1/64 are always discarded in favour of moment estimates.", "quantifier": "for all data, units, optimisers, initial labels, iteration limits", "why_tests_cant": "Quantifies over all optimisers and data.", "anchors": ["pycircstat2/clustering.py:MoKJ.fit", "pycircstat2/clustering.py:MoKJ._regularise_params", "pycircstat2/clustering.py:MoKJ._violates_or_degenerate", "pycircstat2/clustering.py:MoKJ.predict_density"]}
{"id": "C119", "title": "labels predicted for new angles", "statement": "CircHAC.predict and CircKMeans.predict give each angle the first centre at the smallest arc distance, whatever the metric and whichever turn the angle is given in; with metric 'geodesic' this holds only within one turn and fails beyond (4π goes to the centre 3 instead of 0). Before fit CircHAC.predict raises ValueError. Predicting the fitted angles need not give back labels_. The default grid of predict_density covers one turn in radians, and in degrees exactly if full_cycle is 360; with full_cycle=24 it runs through fifteen turns.", "quantifier": "for all centres, angles, metrics; for all grid sizes and cycles", "why_tests_cant": "The claim ranges over a continuum of real inputs; tests only sample finitely many of them.", "anchors": ["pycircstat2/clustering.py:CircHAC.predict", "pycircstat2/clustering.py:CircKMeans.predict", "pycircstat2/clustering.py:MovM.predict_density", "pycircstat2/clustering.py:MoKJ.predict_density", "pycircstat2/clustering.py:MoCD.predict_density"]}
{"id": "C120", "title": "times of day", "statement": "time2float turns strings hh:mm into hh+mm/60: for minutes below 60 the hour is the integer part, later times are larger, and on a 24-hour circle the angle is 2π times the share of the 1440 minutes. A string without the separator or with two of them makes the whole call raise ValueError, so does an empty array. Minutes are not checked (12:75 is 13.25) and count forwards in negative times (-1:30 is -0.5).", "quantifier": "for all lists of digit strings and separators", "why_tests_cant": "The claim ranges over a continuum of real inputs; tests only sample finitely many of them.", "anchors": ["pycircstat2/utils.py:time2float", "pycircstat2/utils.py:data2rad"]}
{"id": "C121", "title": "formula interface of circular-linear regression", "statement": "CLRegression(formula='t ~ x + y', data) fits exactly the model that CLRegression(theta, X) fits to the columns of these names in this order, whatever the whitespace around the names; only the names of the predictors differ (x0, x1, … for arrays). With formula and data the arrays are ignored; with an empty formula or no data the formula is. A vector X is a matrix of one column. A formula without exactly one ~ raises ValueError, an unknown column (also 1 for a constant) KeyError, missing values, non-finite values, mismatched lengths and starting values of the wrong length ValueError, all before fitting.", "quantifier": "for all formulas, data frames, arrays, starting values and fitting procedures", "why_tests_cant": "The claim ranges over a continuum of real inputs; tests only sample finitely many of them.", "anchors": ["pycircstat2/regression.py:CLRegression.__init__", "pycircstat2/regression.py:CLRegression._parse_formula", "pycircstat2/regression.py:CLRegression._prepare_design", "pycircstat2/regression.py:CLRegression._coerce_vector"]}
{"id": "C122", "title": "reproducibility of random samples", "statement": "rvs with an integer random_state depends on that integer only and changes nothing for other calls; a Generator is continued from call to call; of a RandomState exactly one integer is taken, whatever the sample size. Unseeded samples should be reproducible by np.random.seed; this holds for the families that sample through scipy, but for the uniform, triangular, cardioid, Cartwright, wrapped normal, wrapped Cauchy and von Mises distributions np.random.seed is ignored from the first unseeded call on.", "quantifier": "for all sessions (sequences of reseeding, unseeded and seeded calls), generators and samplers", "why_tests_cant": "A test observes one session; the cached generator makes the answer depend on the calls before.", "anchors": ["pycircstat2/distributions.py:CircularContinuous._init_rng", "pycircstat2/distributions.py:vonmises_gen.rvs", "pycircstat2/distributions.py:katojones_gen.rvs"]}
{"id": "C123", "title": "parameters of samples from frozen distributions", "statement": "dist(parameters).rvs(size, random_state) draws with exactly these parameters, the first of them given by position and the others by name in any order; superfluous or unknown arguments raise TypeError. It fails for the von Mises distribution with parameters by position: vonmises(mu, kappa).rvs(...) always raises TypeError, and vonmises.rvs(mu, kappa), as its documentation has it, raises ValueError.", "quantifier": "for all families, parameter values, splits into positional and named arguments, sizes and random states", "why_tests_cant": "The claim ranges over a continuum of real inputs; tests only sample finitely many of them.", "anchors": ["pycircstat2/distributions.py:CircularContinuous.freeze", "pycircstat2/distributions.py:vonmises_gen.rvs", "pycircstat2/distributions.py:jonespewsey_gen.rvs"]}
{"id": "C124", "title": "configuration of plots", "statement": "plot(config=…) uses, for every feature, the default where the user said nothing or True, False where they said False, the default changed entry by entry where they gave a dictionary, and their value otherwise; the defaults themselves never change. The configuration is refused, with KeyError, exactly if True is given for a feature that does not exist. True should switch a feature on; it fails for the features that are off by default: {'spine': True} is the same as no configuration and leaves the spine invisible.", "quantifier": "for all configurations (dictionaries of any size, nested to two levels) and all objects", "why_tests_cant": "The claim ranges over a continuum of real inputs; tests only sample finitely many of them.", "anchors": ["pycircstat2/visualization.py:_merge_dicts", "pycircstat2/visualization.py:circ_plot", "pycircstat2/base.py:Circular.plot"]}
{"id": "C125", "title": "what a plot shows", "statement": "Ungrouped data: one point per observation at its angle rounded to 3 decimals, ties stacked in steps of 0.05, no two points alike. The rose diagram counts every observation in exactly one bin, its tallest bar reaches the unit circle, and the areas of its bars are proportional to the counts. The interval of the mean is drawn as the counter-clockwise arc from its lower to its upper end; an interval mean±d becomes the arc of length 2d with the mean in its middle. The mean is a line from the centre to the mean direction whose length is the resultant length, a single median a line of length 0.95, with its interval as an arc at 0.95. With counts asked for, exactly the non-empty bins get a number, their count, in their middle. A density given by its values is drawn at the given angles or at equal steps from 0 to 2π and refused when the lengths differ. It fails in five cases: the rotation of the counts is handed over in radians where degrees are read, so it is below 8; an interval with equal ends is drawn as the whole circle; axial intervals that run over zero get half a circle too much; hour labels stand at the right places only if full_cycle is 24; with resultant length zero, tied points lie outside the default radial limits.", "quantifier": "for all objects, configurations (points, hours) or numbers of bins (rose), intervals", "why_tests_cant": "The claim ranges over a continuum of real inputs; tests only sample finitely many of them.", "anchors": ["pycircstat2/visualization.py:circ_plot"]}
{"id": "C126", "title": "which plots fail", "statement": "Every ungrouped object with a median can be plotted with the default configuration. Every object should be; it fails for grouped data: the default plot raises AttributeError (KeyError if a mixture was selected), and so does every configuration that leaves the median, or rose, density and the undocumented rlim_max, at their defaults. Objects without a median fail as well unless the median is configured. {'density': False, 'median': False} always works for grouped data. {'scatter': False} raises TypeError for ungrouped data.", "quantifier": "for all objects that the constructor returns and all configurations", "why_tests_cant": "The claim ranges over a continuum of real inputs; tests only sample finitely many of them.", "anchors": ["pycircstat2/visualization.py:circ_plot", "pycircstat2/base.py:Circular.plot", "pycircstat2/base.py:Circular.__init__"]}
{"id": "C127", "title": "estimator used by mixtures of circular distributions", "statement": "Each component fit returns the estimate of the first method in the chosen order that works and raises RuntimeError exactly if none does. fit_kwargs['method'] replaces fit_method; fit_method=None and [] mean maximum likelihood; an unknown method, among them 'auto' in fit_kwargs, makes every fit fail. Exactly five distributions are accepted; the rule preferring maximum likelihood for the flat-topped von Mises and inverse Batschelet distributions should apply to them and cannot, because both are refused. The mixture should be fitted by maximum likelihood, its likelihood growing from pass to pass; with the default fit_method='auto' this fails: every component is fitted by the method of moments, the optimiser is never called, and the recorded likelihood can fall (cardioid mixture of two components, seven observations at 0° and 180°).", "quantifier": "for all distributions accepted, data, weights, lists of methods, optimisers, draws of labels", "why_tests_cant": "Quantifies over all optimisers and data.", "anchors": ["pycircstat2/clustering.py:MoCD.__init__", "pycircstat2/clustering.py:MoCD._normalise_fit_method", "pycircstat2/clustering.py:MoCD._fit_component", "pycircstat2/clustering.py:MoCD._array_to_params"]}
{"id": "C128", "title": "table of a circular-linear regression", "statement": "summary() of a circular-linear regression prints one row per coefficient, in order: estimate, standard error, t value and the probability that a standard normal variable is further from zero than the t value, with the stars of that probability. The t values should carry the sign of the estimate: those of alpha and gamma do, those of beta are always positive. Because the standard errors of beta are too small, the p-value printed for a beta other than zero is strictly smaller than that of the Wald test whenever mu and beta can be estimated together; with a constant predictor, where nothing in the data determines beta, every beta other than zero gets three stars once the sample is large enough. Unfitted models are refused with ValueError.", "quantifier": "for all numbers of observations and predictors, all predictors, coefficients and concentrations", "why_tests_cant": "The claim ranges over a continuum of real inputs; tests only sample finitely many of them.", "anchors": ["pycircstat2/regression.py:CLRegression.summary", "pycircstat2/utils.py:significance_code"]}
{"id": "C129", "title": "table of a circular-circular regression", "statement": "summary() of a circular-circular regression prints the intercept and exactly one row for the cosine and one for the sine of every harmonic of every feature, with the coefficients of just that term: adding up the terms named by the labels times the printed coefficients points to the fitted direction. The labels should use the names of the features; they do not: features are called x1, x2, … although feature_names calls them x0, x1, … (or by the names in the formula), so the rows of each feature carry the name of the next one.", "quantifier": "for all numbers of features and harmonics, all coefficients", "why_tests_cant": "The claim ranges over a continuum of real inputs; tests only sample finitely many of them.", "anchors": ["pycircstat2/regression.py:CCRegression.summary", "pycircstat2/regression.py:CCRegression._fit"]}
{"id": "C130", "title": "report of a Circular object", "statement": "Printing a Circular object, or its summary(), works for every object of plain observations and for every object made with averaged medians; it raises TypeError exactly if the median is an array, which grouped objects made with return_average=False can have. The same directions in another unit give the same report with every angle, interval bound and angular deviation converted. The printed mean is in [0, full cycle); the sines of the angles of plain observations from it cancel and the cosines add up to n times the printed r. For plain observations the printed sample size is their number, and the p-value with its marks is that of the Rayleigh test.", "quantifier": "for all data, units, options, draws", "why_tests_cant": "The claim ranges over a continuum of real inputs; tests only sample finitely many of them.", "anchors": ["pycircstat2/base.py:Circular.__repr__", "pycircstat2/base.py:Circular.__str__", "pycircstat2/base.py:Circular.summary"]}
{"id": "C131", "title": "options of the interval of the mean", "statement": "kwargs_mean_ci selects the method of the interval by its entry 'method' (bootstrap without it); other entries have no effect. Objects made with the same options should use the same method. They do not: the constructor takes 'method' out of the caller's dictionary, every later object made with it uses the bootstrap, and for grouped or binned data with a significant direction the same call that made an object fails when repeated.", "quantifier": "for all data, frequencies, bins, units, dictionaries", "why_tests_cant": "The claim ranges over a continuum of real inputs; tests only sample finitely many of them.", "anchors": ["pycircstat2/base.py:Circular.__init__"]}
{"id": "C132", "title": "derived functions of a distribution", "statement": "logcdf, logsf, isf and interval agree with cdf, sf and ppf: exponentiating the logarithms gives cdf and sf, isf(q) is ppf(1-q) and inverts sf, interval(c) has cdf (1-c)/2 below and above it up to the accuracy of ppf, confidence outside [0,1] is refused, and nnlf is minus the sum of the log densities of the (wrapped) data, infinite where one is zero or the parameters are refused. A user expects interval to be the arc around the mode; it is not: it never contains direction 0, and for the triangular distribution (mode 0) it is the arc of that probability where the density is lowest. nnlf with a location above one of the angles is infinite, the data are not wrapped around the location; vonmises.nnlf never returns a number, its documented call raises TypeError.", "quantifier": "for all families, parameters, angles, probabilities, data", "why_tests_cant": "The claim ranges over a continuum of real inputs; tests only sample finitely many of them.", "anchors": ["pycircstat2/distributions.py:CircularContinuous.logcdf", "pycircstat2/distributions.py:CircularContinuous.logsf", "pycircstat2/distributions.py:CircularContinuous.nnlf", "pycircstat2/distributions.py:CircularContinuous", "pycircstat2/distributions.py:vonmises_gen.nnlf"]}
{"id": "C133", "title": "merge heights and dendrogram", "statement": "With the geodesic, angular separation or chord metric the heights of successive merges of hierarchical clustering never decrease, whatever the data and the initial grouping. With the default metric they can: 0, 0.1 and 2 are joined at heights 2 and 0.9. plot_dendrogram on an unfitted model raises AttributeError and otherwise draws for every merge the two legs and the bar at the height of the merge, nothing else; a user expects the leg of a merged cluster to start at the height of its own merge, but every leg starts at height 0.", "quantifier": "for all data, metrics, numbers of clusters, initial groupings", "why_tests_cant": "The claim ranges over a continuum of real inputs; tests only sample finitely many of them.", "anchors": ["pycircstat2/clustering.py:CircHAC.fit", "pycircstat2/clustering.py:CircHAC.plot_dendrogram"]}
{"id": "C134", "title": "clustering does not depend on the zero direction", "statement": "Turning all angles by the same amount (whole turns added to single angles at will) changes nothing but the reported directions, which turn along: k-means keeps labels and inertia (for the same starting points; with metric 'geodesic' for angles in [0,2π]), hierarchical clustering labels, merges, heights and resultant lengths, the von Mises mixture its recorded likelihoods, stopping pass, weights and concentrations. The order of the observations is irrelevant for k-means (same starting angles) and for the mixture (same starting groups), and so are the numbers of the groups the mixture starts from. Hierarchical clustering with the default metric does depend on the order: with two clusters, 0 and 2 are joined in the data 0, 0.1, 2, but 0.1 and 0 in the data 2, 0.1, 0.", "quantifier": "for all data, rotations, orders, starting points, options", "why_tests_cant": "The claim ranges over a continuum of real inputs; tests only sample finitely many of them.", "anchors": ["pycircstat2/clustering.py:CircKMeans.fit", "pycircstat2/clustering.py:CircHAC.fit", "pycircstat2/clustering.py:MovM.fit"]}
{"id": "C135", "title": "concentration estimate versus maximum likelihood", "statement": "For a sample with frequencies whose resultant length r is below 1, circ_kappa(r) never exceeds the maximum likelihood estimate of the von Mises concentration and is at most 1.1 per cent below it, whichever of its three formulas applies; with the small-sample correction it never exceeds it either. Such a maximum likelihood estimate always exists.", "quantifier": "for all samples with non-negative frequencies of positive total and resultant length below 1", "why_tests_cant": "The claim ranges over a continuum of real inputs; tests only sample finitely many of them.", "anchors": ["pycircstat2/descriptive.py:circ_kappa", "pycircstat2/utils.py:A1inv", "pycircstat2/regression.py:CLRegression._A1inv"]}
{"id": "C136", "title": "level of simulated p-values", "statement": "A simulated p-value must not be at most alpha with more than probability alpha when the null hypothesis holds. It is so, whatever the sample size, the number of simulations and alpha, for the tests of Rayleigh, Kuiper, Watson and Rao (ungrouped) with uniform data; for two or more directions these p-values are exact, at most k/(B+1) with probability k/(B+1). It is so for the computed p-value of the circular range test, and for the angular randomisation test, whatever the pooled data, when every allocation to the two samples is equally likely. It fails for Rao's test of grouped data, which adds noise to the simulated samples only: of two observations spread evenly over m classes, the p-value is the smallest possible one, 1/(B+1), with probability at least 1/m, however large the number B of simulations is.", "quantifier": "for all sample sizes, numbers of simulations, levels; for all pooled data (randomisation test)", "why_tests_cant": "A statement about the distribution of the p-value over all data and all random draws.", "anchors": ["pycircstat2/hypothesis.py:rayleigh_test", "pycircstat2/hypothesis.py:kuiper_test", "pycircstat2/hypothesis.py:watson_test", "pycircstat2/hypothesis.py:rao_spacing_test", "pycircstat2/hypothesis.py:angular_randomisation_test", "pycircstat2/hypothesis.py:circ_range_test"]}
{"id": "C137", "title": "level of tests that count observations", "statement": "A p-value must not be at most alpha with more than probability alpha when the null hypothesis holds. The binomial test keeps the level for every law with equal mass on both sides of the hypothesised median (also with mass on the median itself), Batschelet's test for every law with half of its mass within a quarter turn of the direction. Batschelet's test, announced against concentration about the direction, gives the same p-value for the opposite direction. The Hodges-Ajne test does not keep any level: of 2k uniform directions the p-value is 0 with probability at least C(2k,k)/16^k, for two directions at least 1/8.", "quantifier": "for all laws, sample sizes, levels, numbers of scanned lines", "why_tests_cant": "A statement about the distribution of the p-value over all samples.", "anchors": ["pycircstat2/hypothesis.py:binomial_test", "pycircstat2/hypothesis.py:batschelet_test", "pycircstat2/hypothesis.py:omnibus_test"]}
{"id": "C138", "title": "test statistics are centred under the null hypothesis", "statement": "A statistic referred to a law should have the mean of that law when the null hypothesis holds. Exactly so, for every sample size: Rayleigh's z of uniform directions has mean 1, Watson's one-sample statistic 1/12 and Rao's spacing statistic of n directions 360(1-1/n)^n degrees; the statistic u of the V test, referred to the standard normal law, has mean 0 and variance 1; the circular range of n directions has mean 2 pi (1-(1+1/2+...+1/n)/n); the chi-square statistic of k equally likely classes has mean k-1; the two-sample Wheeler-Watson statistic, averaged over all allocations of any pooled data without ties, is 2; Watson's two-sample statistic, averaged over all splits of N pooled values without ties, is (N+1)/(12N); the rank correlation averaged over all pairings is 0. With k>=3 samples the Wheeler-Watson statistic is too large: its average is N/(N-1) times its degrees of freedom 2(k-1) (four observations in three samples: 16/3 instead of 4).", "quantifier": "for all sample sizes, numbers of classes and samples, pooled data without ties", "why_tests_cant": "A statement about the average over all samples, allocations or pairings.", "anchors": ["pycircstat2/hypothesis.py:rayleigh_test", "pycircstat2/hypothesis.py:watson_test", "pycircstat2/hypothesis.py:watson_u2_test", "pycircstat2/hypothesis.py:rao_spacing_test", "pycircstat2/hypothesis.py:V_test", "pycircstat2/hypothesis.py:circ_range_test", "pycircstat2/hypothesis.py:chisquare_test", "pycircstat2/hypothesis.py:wheeler_watson_test", "pycircstat2/correlation.py:_circ_corrcc_np"]}
{"id": "C139", "title": "random start of a mixture", "statement": "A mixture fit accepts any number of components up to the number of observations, but draws its starting groups at random, at most 100 times, and raises RuntimeError when every draw left a group empty. Over all draws this happens, whatever the data and the other options, for the share (1-full/K^n)^100, where full counts the allocations of n observations to K groups without empty group. With the default of 5 groups and at least 8 observations it is below one in ten million; with as many groups as observations the fit raises for at least 96 per cent of all draws from 10 observations on. Mixtures of other distributions draw at most 128 times: at least the share (1-full/K^n)^128 of the draws fails, exactly that if the component fits never fail, and at least 94 per cent with as many groups as observations (10 or more).", "quantifier": "for all numbers of observations and components, data, options; over all draws", "why_tests_cant": "A statement about the share of all random draws.", "anchors": ["pycircstat2/clustering.py:MovM._initialize", "pycircstat2/clustering.py:MovM.fit", "pycircstat2/clustering.py:MoCD._initialize", "pycircstat2/clustering.py:MoCD.fit"]}
{"id": "C140", "title": "p-values from series", "statement": "With n_simulation=1 the tests of Kuiper and Watson compute the p-value from a series cut after 49 and 50 terms. It should be a probability and large for samples in perfect agreement with uniformity. It is not: Watson's p-value, which is never negative, is at most 5100 pi^2 times the statistic, so for n evenly spaced directions, which have the smallest statistic of all samples of their size, it is at most 4200/n (84 000 of them are significant at 5 per cent); Kuiper's p-value of n evenly spaced directions is below -50 for every n from 100 000 on.", "quantifier": "for all samples (Watson), all numbers of evenly spaced directions (from 100 000 on for Kuiper)", "why_tests_cant": "A statement about all samples and all large sample sizes.", "anchors": ["pycircstat2/hypothesis.py:kuiper_test", "pycircstat2/hypothesis.py:watson_test"]}
