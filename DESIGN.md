# Formal model of pycircstat2 — design

Source: `/repo/pycircstat2` (read as text; never built or run). Proofs: Lean 4.33.0 + Mathlib,
under `lean/Verif`. Build: `cd lean && lake build`.

## Layout

| Directory | Content |
|---|---|
| `Verif/Model/*` | one Lean definition per modelled Python function; every definition cites file and lines |
| `Verif/Spec/*`  | small, model-independent specifications (arc membership, Lipschitz arc metric, …) |
| `Verif/Lemmas/*`| helper lemmas (never cited from `MANIFEST.json`) |
| `Verif/Props/*` | the property theorems `Cnn_*`, each followed by an `example` showing that its hypotheses are met by a concrete non-trivial input |

## Trusted base

* The Lean 4 kernel and the three standard axioms `propext`, `Classical.choice`, `Quot.sound`
  (checked with `#print axioms`; no theorem uses any other axiom).
* Mathlib's definitions of `ℝ`, `Real.cos`, `Complex.arg`, `∫`, … used in theorem statements.
* The reading of the Python source. The model is hand-written; the only link to the code is the
  citation on each definition.

## Modelling conventions

* **Floats are real numbers.** `float`/`ndarray` arithmetic is modelled over `ℝ`. Rounding error,
  overflow, underflow, signed zero are *not* captured. Tolerances that appear in the code
  (`np.isclose`, `1e-12`, …) are modelled literally.
* **nan / ±inf are `none`** of `Option ℝ` where the code can produce them on reachable input
  (e.g. `0/0` for total weight 0, or an explicit `np.nan`). Raised exceptions are `Except.error`.
* `np.ndarray` of one dimension is `List ℝ`. Shape mismatch of `alpha`/`w` (numpy broadcasting
  error) is excluded by a hypothesis `alpha.length = w.length`, unless the code checks it itself,
  in which case the check is modelled.
* Python/numpy `%` on floats is floor-mod `x - b*⌊x/b⌋`.
* `np.isclose(a,b)` is `|a-b| ≤ atol + rtol*|b|` with `rtol = 1e-5`, `atol = 1e-8` by default.
* `np.round(x, 5)` is round-half-even at 5 decimals, or — where only its monotonicity matters — a
  parameter.
* Random draws, scipy special functions, cdfs, quantiles, optimisers, `lstsq`, `quad` are parameters of
  the model; every theorem is quantified over them, with the assumed behaviour in its hypotheses.
* Verbose printing, plotting (`visualization.py`), data loading, docstrings and warnings are not modelled.

## Properties: what is modelled and how it is proved

| id | property | model / proof plan |
|---|---|---|
| C01 | angmod is the unique normalisation | pymod as floor-mod over ℝ; Except for the bounds check; uniqueness by Int.floor |
| C02 | data2rad and rad2data are inverse | field arithmetic |
| C03 | rotate_data is a group action of rotations | compose models of data2rad, angmod, rad2data |
| C04 | angular_distance is the arc-length metric | angmod characterisation plus case analysis |
| C05 | significance_code is a monotone threshold code | if-chain over ℝ; attribute lookup of a result |
| C06 | is_within_circular_range is arc membership | floor-mod case analysis |
| C07 | resultant length lies in [0,1] and is the mean vector length | complex exponential sum; strict triangle inequality |
| C08 | resultant length invariances | algebra of finite sums |
| C09 | frequency weights mean repetition | induction over List.replicate |
| C10 | circular mean: range, nan rule and rotation equivariance | Complex.arg polar form + angmod |
| C11 | circular mean maximises the cosine sum | Σw cos(α-θ)=n r cos(m-θ) |
| C12 | combining group means | linearity of the mean vector |
| C13 | trigonometric moment laws | finite exponential sums |
| C14 | dispersion, skewness and kurtosis are shape statistics | moment laws + convert_moment polar form |
| C15 | variance and standard deviation ranges | log/exp over ℝ; sin x<x |
| C16 | chunked mean deviation equals the direct one | loop with fuel over chunks; List.drop/take induction |
| C17 | geodesic distance formula versus arc length | compare with angular_distance model; witness for the negative part |
| C18 | deviation median returns minimising observations | argmin set over lists |
| C19 | count median returns most balanced observations | counting model with rounding as parameter |
| C20 | dispersion confidence interval contains the mean | arcsin range + arc membership |
| C21 | approximate confidence interval contains the mean | inequalities over ℝ |
| C22 | bootstrap confidence interval contains the bootstrap mean | resamples as an arbitrary list; arc membership complement law |
| C23 | median confidence interval for large samples | Int index arithmetic with Except for IndexError; witness |
| C24 | HDI covers the requested mass and is shortest | sliding-window fold with minimum invariant |
| C25 | circ_dist metrics are mutually consistent | Complex.arg of exp quotient |
| C26 | circular range is the shortest covering arc | sorted list gaps; covering arc argument |
| C27 | circular quantiles | np.quantile linear interpolation model |
| C28 | kappa estimator | polynomial inequalities (nlinarith) |
| C29 | kernel density estimate | pointwise formula model |
| C30 | Rayleigh test p value | exp/sqrt inequalities |
| C31 | Monte-Carlo p values are never zero | draws as arbitrary lists |
| C32 | V test | mean-direction identity |
| C33 | one-sample test decision | arc membership |
| C34 | Hodges-Ajne omnibus test | lgamma at integers as log factorial |
| C35 | Batschelet test count | counting over lists |
| C36 | Watson-Williams statistic is non-negative | triangle inequality |
| C37 | circular ANOVA decomposition | mean-direction identity |
| C38 | two-sample Watson U² needs sorted samples | executable model of np.repeat/np.diff with Except; witness |
| C39 | uniform-scores statistic | sum of roots of unity vanishes |
| C40 | Wallraff statistic | mid-rank sums |
| C41 | Kuiper statistic is rotation invariant | sup-difference of the ecdf over circular arcs |
| C42 | Watson one-sample U² is rotation invariant | cyclic shift algebra on sorted lists |
| C43 | Rao spacing statistic | gap list model |
| C44 | binomial median test | counts of sign of signed distance |
| C45 | concentration test is symmetric | decision logic on f ≥ 1 |
| C46 | Rao homogeneity statistics are non-negative | weighted variance identity / Cauchy-Schwarz |
| C47 | change-point scan | prefix/suffix resultants, triangle inequality |
| C48 | Harrison-Kanji decomposition | group sums of vectors, Jensen/Cauchy-Schwarz |
| C49 | equal-kappa regimes | weighted variance; log concavity |
| C50 | common median test | algebra over counts |
| C51 | Fisher-Lee correlation | Cauchy-Schwarz over pair sums |
| C52 | Jammalamadaka-SenGupta correlation | Cauchy-Schwarz + mean equivariance |
| C53 | rank circular correlation | rank model |
| C54 | circular-linear correlation | Gram determinant of three vectors |
| C55 | circular-circular regression output | lstsq as arbitrary function |
| C56 | circular-linear regression loop | loop as recursion with the update step abstract |
| C57 | information criteria | direct |
| C58 | mixture responsibilities are probabilities | log-sum-exp algebra, induction over iterations |
| C59 | EM stopping rule | loop over an arbitrary likelihood sequence |
| C60 | mixture density integrates to one | linearity of the integral; bounds of the logarithm |
| C61 | hierarchical clustering yields a partition | state machine over cluster dictionaries |
| C62 | hierarchical clustering merges the closest pair | argmin over ordered pairs; counterexample |
| C63 | k-means labels | iteration model |
| C64 | silhouette score range | mean of bounded terms |
| C65 | Circular constructor decision table | decision logic |
| C66 | axial data identify opposite directions | floor-mod algebra |
| C67 | distribution wrappers are 2π-periodic | model of _wrap_angles with the tolerance rule |
| C68 | location and scale cannot be smuggled in | argument lists as values |
| C69 | normaliser cache is transparent | state machine with memo table |
| C70 | numerical cdf accumulation | fold over sorted queries |
| C71 | circular uniform distribution | closed forms |
| C72 | triangular distribution | piecewise polynomials; FTC; quadratic formula |
| C73 | cardioid distribution | FTC |
| C74 | cardioid ppf accuracy | model of the iteration and bisection loops |
| C75 | wrapped Cauchy distribution | derivative of the arctangent form |
| C76 | von Mises distribution | Bessel functions as integrals; Fourier series of exp(κcos); ratio recurrences bound the tail; counterexamples |
| C77 | sine-skewed density | odd/even symmetry of the integrand |
| C78 | Kato-Jones density is a density | Poisson-kernel algebra |
| C79 | Kato-Jones parameter conversions are inverse | polar coordinates |
| C80 | Kato-Jones cdf matches its pdf | series termwise; counterexample |
| C81 | tabulated distribution functions | trapezoid and spline errors; witness |
| C82 | bracketed quantile solvers | loop invariant over arbitrary step function |
| C83 | estimators return valid parameters | clipping arithmetic |
| C84 | inverse Batschelet densities and earlier calls | cache state machine; witness; invariant over histories |
| C85 | median does not depend on the order of the data | multiset invariance; counterexample in the shortcut |
| C86 | grouped median halves the histogram | piecewise linear half-circle frequency equals the integral of the histogram density; counterexamples |
| C87 | bootstrap studentising matrix | algebra over the reals; negation for correlated samples, positive theorem for the corrected formula |
| C88 | weighted samples stand for repeated observations | case analysis of the coercion; refusal theorem |
| C89 | angular randomisation statistic | arc-distance characterisation of the pairwise sum |
| C90 | Rao spacing test frequencies | expansion equality; witness for the truncation |
| C91 | circular range test | B-spline identity for the alternating sum; inclusion-exclusion over the gaps of uniform samples, measure of each gap region by Fubini |
| C92 | converged circular-linear regressions solve their score equations | fixed point equations; derivative of the log-likelihood; witness for the mixed model |
| C93 | mixture BIC uses the likelihood of the fitted data | unfolding; witness for degrees |
| C94 | EM passes do not lower the likelihood | Gibbs inequality with the offset, induction over passes |
| C95 | k-means under angular separation does not raise its inertia | regrouping by label; maximal resultant projection; induction over passes |
| C96 | binning by the constructor | induction over the edges; witness with one lost observation |
| C97 | medians of Circular objects | decomposition of the constructor; witness |
| C98 | default interval of the mean is available | positive theorem for n≥25; impossibility theorem and witnesses for n<25 |
| C99 | stats() agrees with the individual methods | unfolding; complex argument of a rotated moment |
| C100 | median() of a distribution | exact quantile; expected arc distances as integrals |
| C101 | objective and gradient of likelihood fits agree | derivatives over the reals; witness for the wrong sign |
| C102 | samples follow the distribution | monotone distribution function with approximate inverse; characteristic functions by the mean value property and polar coordinates; derivative in gamma for the shift |
| C103 | Kato-Jones moment estimates match the sample moments | polar form of the second moment |
| C104 | Jones-Pewsey distribution | Laplace integral; aliasing and truncation bounds for cosine series |
| C105 | predictions of circular-linear regression | balance of the mean direction; range of the link function |
| C106 | flat-topped von Mises distribution | trapezoid rule for analytic periodic functions |
| C107 | methods of one distribution accept the same parameters | argument check of each method |
| C108 | rejection samplers terminate in practice | measure of the accepting draws |
| C109 | maximum likelihood fits | objective is the negative log-likelihood on the box |
| C110 | inverse Batschelet distribution | change of variables through the two warps; trapezoid rule for analytic periodic functions |
| C111 | Cartwright's distribution | beta integral under t=sin²; overflow of Γ beyond 171 |
| C112 | wrapped normal distribution | Poisson summation; Dirichlet partial sums; normal tail bounds for the windows |
| C113 | symmetry test | Walsh-average form of the signed rank sums |
| C114 | chi-square test of grouped data | expansion of the sum of squares |
| C115 | wrapped stable distribution | orthogonality of the truncated series; characterisation of the truncation order; geometric tails; alternating sums for the negative values |
| C116 | asymmetric Jones-Pewsey distribution | total variation bound for the interpolated trapezoid sums; strictly increasing warp |
| C117 | standard errors of circular-linear regression | Fisher information as expected product of score functions, computed by Bessel integrals; positive definite quadratic forms |
| C118 | components of a fitted Kato-Jones mixture | invariant of the EM passes; exact density of the family |
| C119 | labels predicted for new angles | all metrics are increasing functions of the arc; witnesses |
| C120 | times of day | induction over the list and the characters |
| C121 | formula interface of circular-linear regression | splitting and stripping of strings; case analysis of the constructor |
| C122 | reproducibility of random samples | induction over sessions |
| C123 | parameters of samples from frozen distributions | Python's argument binding over lists and dictionaries |
| C124 | configuration of plots | induction over the entries |
| C125 | what a plot shows | drawing calls as data; permutations of the points; sums over bins; arithmetic of arcs |
| C126 | which plots fail | inversion of the construction and of the plot |
| C127 | estimator used by mixtures of circular distributions | induction over the candidates; case analysis of the five fits; exact rational witness |
| C128 | table of a circular-linear regression | two-sided tails of the normal distribution; C117; Chebyshev's inequality |
| C129 | table of a circular-circular regression | position of every coefficient in the flattened arrays |
| C130 | report of a Circular object | case analysis; unit conversion commutes with every step; mean direction |
| C131 | options of the interval of the mean | dictionary as state threaded through two calls; witness |
| C132 | derived functions of a distribution | case analysis at the edges; symmetry of the triangular density; exceptions as values |
| C133 | merge heights and dendrogram | monotonicity of the mean direction of a merged cluster between its parts' arcs; witness; drawing as list of strokes |
| C134 | clustering does not depend on the zero direction | relational induction through the loops; mean direction is equivariant, distances see differences only; witness |
| C135 | concentration estimate versus maximum likelihood | Riccati equation of I1/I0 along the three curves; continued-fraction enclosures at the joints; polynomial inequalities in Bernstein form |
| C136 | level of simulated p-values | ranks of exchangeable statistics: product measure invariant under exchanging samples; measurability through order statistics; the statistics have no atoms (slices along a coordinate); counting for permutations |
| C137 | level of tests that count observations | product measure of sign patterns; counting subsets; disjoint boxes of positive probability |
| C138 | test statistics are centred under the null hypothesis | second moments of sums of roots of unity under random permutations; independence under the product measure; counting assignments; a permutation that reverses the order; law of the gap after an observation |
| C139 | random start of a mixture | counting of allocations; factorial against power; union bound |
| C140 | p-values from series | terms of the alternating series in pairs; bounds of the exponential function; value of the statistics for evenly spaced directions |

## What is modelled and what is not

A function counts as modelled when a definition in `Verif/Model` cites its lines; that definition says where it
simplifies. Argument parsing by numpy and text output are not modelled unless said otherwise.

| file | not modelled |
|---|---|
| `utils.py` | `load_data` |
| `descriptive.py` | the misspelled alias `circ_mean_deviation_chuncked` |
| `correlation.py` | the type checks of `_coerce_angles` |
| `hypothesis.py` | `_init_rng`, `TestResult.asdict` |
| `clustering.py` | constructors' checks in part, titles and styles of plots, inspection of signatures and of parameter names by `MoCD.__init__`, aliases |
| `regression.py` | the lines of the summaries outside the tables of coefficients; pandas data frames are lists of named columns |
| `base.py` | wording and rounding of the report; its line about the mixture |
| `distributions.py` | scipy's own code (its dispatch is modelled from its documentation), pickling, frozen wrappers other than `rvs` |
| `visualization.py` | colours, markers, line styles, figure creation; numpy's named binning rules (a plot is the list of its drawing calls) |

Numerical routines of scipy and numpy (special functions, quadrature, root finding, optimisers, linear solvers,
random draws) enter as parameters; theorems assume of them only what they state.

## Where the code disagrees with the property a user would expect

In these cases the negation is proved, with a concrete witness or for a whole class of inputs; the positive theorems
carry the hypotheses under which the claim holds.

* **Distances and medians.** The geodesic metric is negative beyond one turn (C17). The counting median counts a point
  close to the opposite direction twice (C19). The interval for the median of at most 15 observations ignores the median and
  can miss it; for more it can raise `IndexError` (C23). The deviation median of nearly equal observations depends on their
  order (C85); the median of grouped data with an odd number of bins can raise `IndexError`,
  and with several half-frequency bins it can be the middle of an empty bin opposite to the data (C86).
* **Input and plots.** Minutes of negative times count forwards (C120). `{"spine": True}` does not show the spine (C124); degenerate and
  axial intervals are drawn as wrong arcs, hour labels are wrong unless `full_cycle=24`, tied points can be cut off, counts on bars are rotated by radians read as degrees (C125); the default
  plot of grouped data raises (C126).
* **Default mixtures do not maximise the likelihood.** `MoCD(fit_method="auto")`, the default, fits every component by
  the method of moments and never calls the optimiser; the recorded likelihood can fall from pass to pass, so C94
  applies only to `fit_method="mle"` or `None` (C127).
* **Dead rule.** `MoCD` has a rule for the flat-topped von Mises and inverse Batschelet distributions, which its constructor
  refuses (C127).
* **Random start.** With as many components as observations (from 10 on) a mixture fit, though accepted, raises `RuntimeError` for at
  least 96 per cent of the draws (C139).
* **Descriptive.** Skewness and kurtosis depend on the orientation when the resultant is zero (C14); the bin correction can make
  the variance negative (C15); the concentration estimate is not monotone (C28); bootstrap replicates are studentised
  with a matrix that is not a square root of the covariance (C87).
* **Tests.** The Hodges-Ajne scan is not rotation invariant (C34) and gives p value 0 to uniform samples of even size with positive probability (C137); Batschelet's test does not distinguish a direction from its opposite (C137); Watson's two-sample test refuses unsorted samples
  and can report 2 as p value (C38); Wallraff's test ignores weights (C40); symmetry and common-median tests treat an
  observation opposite to the median as lying on one side (C44, C113); the concentration test is not symmetric where its statistic is exactly 1 (C45); the
  change-point scan is `nan` when the first two observations agree (C47); negative interaction sum of squares (C48); `nan` and negative
  statistics for few or concentrated groups, and dependence of the test of equal concentration on where the groups point (C49); Rao's test of equal mean
  directions depends on the zero direction (C46); the Wheeler-Watson statistic of three or
  more samples lacks the factor (N-1)/N (C138); the test of the rank correlation is one-sided and blind to negative association (C53); truncated frequencies (C90).
* **Correlation.** Whether a number, `nan` or an exception comes back depends on the zero direction (C54).
* **Circular objects.** The constructor removes `method` from the caller's `kwargs_mean_ci` (C131); some grouped objects cannot be printed (C130). The axial doubling uses the unit's cycle, the median is not halved (C66); binning loses
  negative angles (C96); tied medians without averaging refuse the object (C97); grouped data with `8 ≤ n < 25`
  have no default interval (C98).
* **Regression.** The reported concentration is that of the previous pass (C56); the mixed model's update of the direction
  part does not solve the score equations (C92); predictions are not reduced to one turn (C105); standard errors of `beta` treat `mu` as known
  and are finite for an unidentifiable predictor (C117), which makes the printed p-values too small; printed t values of `beta` lose their sign (C128);
  printed labels of features are shifted by one against `feature_names` (C129).
* **Clustering.** Agglomeration with the default metric does not merge the closest pair (C62) and its heights can decrease;
  the result depends on the order of the data (C134);
  in the dendrogram every leg starts at height 0 (C133); an undefined k-means centre attracts every
  angle, and labels can differ from those predicted (C63); attributes of an earlier fit survive (C59); `MoCD.bic` converts degrees twice (C93);
  the Kato-Jones mixture discards every likelihood estimate with `gamma ≥ 1 - 1/64` (C118); the default grid of `predict_density` is
  wrong in degrees unless `full_cycle=360`, and `predict` with the geodesic metric is wrong for angles more than a turn away (C119).
* **Distribution functions.** Several `cdf` methods are 1 from `2π - 6e-5` on or drop to 0 before `2π` (C75, C76, C80, C81, C111, C115);
  for small concentration or `rho` the sine-skewed and Kato-Jones `cdf` are not the integrals of the densities (C77, C80).
* **Densities.** The wrapped normal density is negative opposite to `mu` for `rho ≥ 0.96` (C112), the wrapped stable density can be
  negative and jumps at `alpha = 1` (C115); Cartwright's density is 0 or `nan` for `zeta ≤ 2/171` (C111); answers of the inverse
  Batschelet family depend on earlier calls (C84); methods disagree about admissible parameters (C107).
* **Samplers.** Wrapped Cauchy within `1e-5` of `rho = 1` is constant; skewed wrapped stable samples are shifted; the asymmetric Jones-Pewsey sampler is not exact
  (C102); the flat-topped sampler rejects practically everything for positive `nu`, the inverse Batschelet sampler when `kappa·nu²` is large, the Jones-Pewsey sampler for `psi = -1` and large `kappa` (C108); seven families ignore `np.random.seed`
  after their first unseeded sample (C122); `vonmises(mu, kappa).rvs()` raises `TypeError` (C123).
* **Derived functions.** `interval` is not around the mode: it never contains direction 0 and for the triangular family is the arc of lowest density;
  `nnlf` with a location does not wrap; `vonmises.nnlf` raises `TypeError` (C132); simulated p values of Rao's test for grouped data do not keep the level (C136); the p values that Kuiper's and Watson's tests compute from series are negative or tend to 0 for large evenly spaced samples (C140); the von Mises `entropy` increases with `kappa` (C76).
* **Fits.** The von Mises fit hands the optimiser a derivative in `mu` of the wrong sign (C101); the wrapped stable moment fit ignores bounds (C83).

## Mutation testing

`seeded/LOG.jsonl` records every wrong program tried: definition, edit, the claim it breaks, the theorems that
failed, and the theorems that were tightened when a mutant survived. Survivors that are equivalent to the original
over ℝ are marked as such.
