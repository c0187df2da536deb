{"id": "C01", "title": "Qn returns the exact order statistic of pairwise distances", "statement": "For every sample of n>=2 real numbers, Qn(consistency_correction=False, finite_correction=False).fit(X).scale is the k-th smallest of the n(n-1)/2 distances |x_i-x_j| (i<j), with k=h(h-1)/2 and h=n//2+1, and the search loop terminates; with the corrections switched on the result is that number times dn(n) and times 2.219144.", "quantifier": "all sample sizes n>=2, all real samples including ties and any order, both correction flags", "why_tests_cant": "The O(n log n) search keeps moving left/right matrix bounds; a wrong bound only shows for particular tie patterns and sizes, and termination cannot be observed by finitely many runs.", "anchors": ["robpy/univariate/qn.py: Qn._calculate", "robpy/univariate/qn.py: _get_small_sample_dn", "robpy/utils/median.py: weighted_median"]}
{"id": "C02", "title": "weighted_median returns a weighted median and always terminates", "statement": "For every non-empty sample with non-negative weights of positive total, weighted_median returns an element of the sample with positive total weight such that the elements strictly below it carry at most half of the weight and the elements up to and including it carry more than half.", "quantifier": "all lengths, all real samples, all non-negative weight vectors with positive sum", "why_tests_cant": "The loop discards candidates and accumulates the discarded weight; correctness is an invariant over all iterations and the loop is `while True`.", "anchors": ["robpy/utils/median.py: weighted_median"]}
{"id": "C03", "title": "UnivariateMCD finds the global minimum-variance h-subset", "statement": "For every sample and subset size 1<=h<=n, the raw variance of UnivariateMCD (before the consistency factor) is less than or equal to the variance of every h-element subset of the observations, and is attained by the subset whose mean is the raw location.", "quantifier": "all samples, all h, all of the C(n,h) subsets", "why_tests_cant": "The code inspects only n-h+1 contiguous windows of the sorted data; that this is enough for all C(n,h) subsets is a theorem, not a test.", "anchors": ["robpy/univariate/mcd.py: UnivariateMCD._get_raw_estimates"]}
{"id": "C04", "title": "UnivariateMCD subset size rule", "statement": "For every n>=1 and every alpha (None, int or float) UnivariateMCD either raises ValueError or uses a subset size h with n//2+1 <= h <= n; alpha=1 always means h=n, and ValueError is raised exactly for integers outside [n/2,n] other than 1 and floats outside [0.5,1].", "quantifier": "all n>=1 and all alpha of each accepted type", "why_tests_cant": "The admissible region depends jointly on n and alpha; tests pick a few pairs.", "anchors": ["robpy/univariate/mcd.py: UnivariateMCD._set_h_size"]}
{"id": "C05", "title": "Qn is location invariant, scale equivariant and order independent", "statement": "For every sample, every a and b, Qn.fit(a*X+b).scale = |a| * Qn.fit(X).scale, any permutation of X gives the same scale, and the scale is never negative.", "quantifier": "all samples of size n>=2, all real a and b, all permutations", "why_tests_cant": "Equivariance is a statement over a continuum of transformations; rounding and tie patterns change the path taken by the algorithm.", "anchors": ["robpy/univariate/qn.py: Qn._calculate"]}
{"id": "C06", "title": "UnivariateMCD is affine equivariant and order independent", "statement": "For every sample and a>0, b, the raw and the reweighted location of a*X+b are a*loc+b and the raw and reweighted variance are a^2*var; any permutation of the sample gives the same estimates.", "quantifier": "all samples, all h, all a>0 and b, all permutations", "why_tests_cant": "The reweighting mask and the window choice could change under a transformation; only a proof covers all of them.", "anchors": ["robpy/univariate/mcd.py: UnivariateMCD._get_raw_estimates", "robpy/univariate/mcd.py: UnivariateMCD._reweighting"]}
{"id": "C07", "title": "Tau location stays inside the data and Tau scale is bounded by the MAD", "statement": "For every sample with non-zero MAD, Tau.fit(X).location lies between min(X) and max(X), the weights it divides by have a positive sum, and the uncorrected scale is at most c2 times the MAD; location and scale are affine equivariant.", "quantifier": "all samples with MAD>0, all c1>1, c2>0, all a<>0 and b", "why_tests_cant": "Boundedness for arbitrarily bad outliers is a universally quantified claim.", "anchors": ["robpy/univariate/tau.py: Tau._calculate", "robpy/univariate/tau.py: Tau._weight_function", "robpy/univariate/tau.py: Tau._rho_function"]}
{"id": "C08", "title": "One-step M location stays inside the data and scale is bounded", "statement": "For every sample without NaN, OneStepM (Huber or Tukey psi) returns a location between min(X) and max(X) with a positive weight sum, and a scale between 0 and MAD*b/sqrt(delta); if the MAD is below min_abs_scale the scale is 0.", "quantifier": "all non-empty samples, all Huber constants b>0 and Tukey constants c>=1, delta>0, 0<min_abs_scale<=1", "why_tests_cant": "Division by the sum of weights is only safe if the sum can never vanish, which is a claim over all data sets.", "anchors": ["robpy/univariate/onestep_m.py: OneStepM._calculate", "robpy/utils/rho.py: Huber", "robpy/utils/rho.py: TukeyBisquare"]}
{"id": "C09", "title": "One-step M estimator is affine equivariant", "statement": "For every sample and a<>0, b: if both MADs are on the same side of min_abs_scale, OneStepM.fit(a*X+b) has location a*loc+b and scale |a|*scale.", "quantifier": "all samples, all a<>0, b", "why_tests_cant": "Continuum of transformations and data.", "anchors": ["robpy/univariate/onestep_m.py: OneStepM._calculate"]}
{"id": "C10", "title": "Qn does not explode under contamination", "statement": "If at least h=n//2+1 of the n observations lie in an interval of length L, the uncorrected Qn is at most L, whatever the values of the remaining observations.", "quantifier": "all samples, all contamination values and positions", "why_tests_cant": "The outliers range over all reals.", "anchors": ["robpy/univariate/qn.py: Qn._calculate"]}
{"id": "C11", "title": "UnivariateMCD does not explode under contamination", "statement": "If at least h observations lie in an interval of length L, then whatever the others are, the raw variance is at most L^2 and the raw location is within sqrt(h)*L of every one of those observations that the selected window contains, and the window contains at least one of them whenever 2h>n.", "quantifier": "all samples, all h, all contamination values and positions", "why_tests_cant": "The outliers range over all reals.", "anchors": ["robpy/univariate/mcd.py: UnivariateMCD._get_raw_estimates"]}
{"id": "C12", "title": "Median and MAD breakdown bound used by all scalers", "statement": "If more than half of the observations lie in [lo,hi], the median lies in [lo,hi] and the raw MAD is at most hi-lo, whatever the other observations are.", "quantifier": "all samples, all outlier values", "why_tests_cant": "The outliers range over all reals.", "anchors": ["robpy/univariate/onestep_m.py: OneStepM._calculate", "robpy/univariate/tau.py: Tau._calculate", "robpy/univariate/qn.py: Qn (location_func=np.median)"]}
{"id": "C13", "title": "Tukey bisquare: psi is the derivative of rho, rho is bounded, even and monotone", "statement": "For every c>0 and every x: psi is the derivative of rho at x (also at |x|=c), rho is even, 0<=rho<=c^2/6, rho is non-decreasing in |x|, and psi(x)/x lies in [0,1].", "quantifier": "all c>0, all real x", "why_tests_cant": "Continuity and differentiability at the join point and boundedness are statements about all reals.", "anchors": ["robpy/utils/rho.py: TukeyBisquare.rho", "robpy/utils/rho.py: TukeyBisquare.psi"]}
{"id": "C14", "title": "Huber: psi is the derivative of rho, psi bounded by b, rho convex growth", "statement": "For every b>0 and every x: psi is the derivative of rho at x, |psi|<=b, rho is even, non-negative and non-decreasing in |x|, and rho(x)<=x^2/2 with equality iff |x|<=b.", "quantifier": "all b>0, all real x", "why_tests_cant": "Join-point behaviour and boundedness over all reals.", "anchors": ["robpy/utils/rho.py: Huber.rho", "robpy/utils/rho.py: Huber.psi"]}
{"id": "C15", "title": "NaN policy of the univariate estimators", "statement": "For every sequence of fit calls on a RobustScale: the estimator never sees a NaN unless it declares it can handle them; fit(X, ignore_nan=True) has the same effect as fit(X with NaN removed); fit on data with NaN and without ignore_nan raises ValueError and leaves the previously fitted location and scale unchanged; scale and location raise NotFittedError exactly until the first successful fit.", "quantifier": "all histories of fit calls, all NaN positions", "why_tests_cant": "Quantifies over call histories.", "anchors": ["robpy/univariate/base.py: RobustScale.fit", "robpy/univariate/base.py: RobustScale.scale", "robpy/univariate/base.py: RobustScale.location"]}
{"id": "C16", "title": "UnivariateMCD returns finite estimates for finite data", "statement": "For every finite sample UnivariateMCD().fit(X) yields a finite location and a finite scale.", "quantifier": "all non-empty finite samples", "why_tests_cant": "The failing inputs (h tied observations) form a set that random tests on continuous data never hit.", "anchors": ["robpy/univariate/mcd.py: UnivariateMCD._calculate", "robpy/univariate/mcd.py: UnivariateMCD._reweighting"]}
{"id": "C17", "title": "Adjusted boxplot ordering", "statement": "For every non-empty sample, min(X) <= lower_whisker <= q1 <= median <= q3 <= upper_whisker <= max(X), and the points reported as fliers are exactly the observations outside the whiskers.", "quantifier": "all samples, all medcouple values in [-1,1]", "why_tests_cant": "The ordering must hold for every skewness value and sample.", "anchors": ["robpy/univariate/adjusted_boxplot.py: adjusted_boxplot"]}
{"id": "C18", "title": "Adjusted boxplot is affine and reflection equivariant", "statement": "For every sample and a>0,b the boxplot of a*X+b is the image of the boxplot of X, and the boxplot of -X is the mirror image of the boxplot of X, given that the medcouple is invariant resp. odd.", "quantifier": "all samples, all a>0, b", "why_tests_cant": "The exponents -4,-3,3,4 must be paired correctly for both skewness signs.", "anchors": ["robpy/univariate/adjusted_boxplot.py: adjusted_boxplot"]}
{"id": "C19", "title": "RobustScaler round trip", "statement": "For every data set on which fit succeeds with non-zero scales, inverse_transform(transform(X)) = X and transform(inverse_transform(Z)) = Z, for each of the four combinations of with_centering and with_scaling; each column is transformed with its own location and scale only.", "quantifier": "all data, all location/scale values with scale<>0, all flag combinations", "why_tests_cant": "Identity over a continuum of inputs.", "anchors": ["robpy/preprocessing/scaling.py: RobustScaler.fit", "robpy/preprocessing/scaling.py: RobustScaler.transform", "robpy/preprocessing/scaling.py: RobustScaler.inverse_transform"]}
{"id": "C20", "title": "Power transform round trip", "statement": "For every fitted RobustPowerTransformer (Box-Cox or Yeo-Johnson, standardised or not, any lambda), inverse_transform(transform(x)) = x for every admissible x (x>0 for Box-Cox).", "quantifier": "all lambda including 0 and 2, all x in the domain, all non-zero pre/post scales", "why_tests_cant": "Piecewise formulas with special cases at lambda=0, 2 and sign changes; tests sample a handful.", "anchors": ["robpy/preprocessing/transfo.py: RobustPowerTransformer.transform", "robpy/preprocessing/transfo.py: RobustPowerTransformer.inverse_transform"]}
{"id": "C21", "title": "Power transforms preserve order", "statement": "For every lambda the Box-Cox transform is strictly increasing on (0,inf) and the Yeo-Johnson transform is strictly increasing on all reals, hence the fitted transform preserves the ranking of observations.", "quantifier": "all lambda, all pairs x<y", "why_tests_cant": "All pairs of reals.", "anchors": ["robpy/preprocessing/transfo.py: RobustPowerTransformer._transf_boxcox", "robpy/preprocessing/transfo.py: RobustPowerTransformer._transf_yeojohnson"]}
{"id": "C22", "title": "Rectified transforms are continuous linear extensions that stay increasing", "statement": "For every lambda and change points inside the domain, the rectified Box-Cox/Yeo-Johnson transform equals the plain transform between the change points, is the tangent line beyond them, and is strictly increasing.", "quantifier": "all lambda, all admissible change points, all x", "why_tests_cant": "Join points depend on lambda and data quartiles.", "anchors": ["robpy/preprocessing/transfo.py: RobustPowerTransformer._transf_boxcox_rectified", "robpy/preprocessing/transfo.py: RobustPowerTransformer._transf_yeojohnson_rectified"]}
{"id": "C23", "title": "inverse_transform is defined everywhere and preserves order", "statement": "For every fitted transformer inverse_transform returns a finite value for every real input and never reverses the order of two inputs.", "quantifier": "all lambda, all real inputs", "why_tests_cant": "Failing inputs are exactly at, or just beyond, the theoretical range boundary.", "anchors": ["robpy/preprocessing/transfo.py: RobustPowerTransformer._handle_bounds", "robpy/preprocessing/transfo.py: RobustPowerTransformer._calculate_bounds"]}
{"id": "C24", "title": "Power transformer refits do not depend on earlier fits", "statement": "A RobustPowerTransformer(method='auto') fitted on data B after having been fitted on data A gives the same fitted state as one fitted only on B.", "quantifier": "all histories of fit calls", "why_tests_cant": "Quantifies over call histories.", "anchors": ["robpy/preprocessing/transfo.py: RobustPowerTransformer.fit", "robpy/preprocessing/transfo.py: RobustPowerTransformer._get_method"]}
{"id": "C25", "title": "Power transformer fit widens the lambda search range and succeeds", "statement": "For every positive data set and every optimiser outcome, fit ends with a fitted lambda (the search range is widened when the optimum is near its edge) instead of raising.", "quantifier": "all optimiser outcomes", "why_tests_cant": "The retry path is only taken when the optimum is within 5% of the range edge.", "anchors": ["robpy/preprocessing/transfo.py: RobustPowerTransformer._fit_boxcox", "robpy/preprocessing/transfo.py: RobustPowerTransformer._fit_yeojohnson"]}
{"id": "C26", "title": "Wrapping leaves the centre untouched, bounds the rest and removes far outliers", "statement": "For every cell with |z|<b wrapping returns the cell unchanged; for |z|>c it returns the location; in general the wrapped value is within scale*max(b, q1) of the location, the wrapping function is odd and keeps the side of the location; with scale 0 it returns the location.", "quantifier": "all data, all locations and scales, all 0<b<c, q1,q2>0", "why_tests_cant": "All reals including arbitrarily bad outliers.", "anchors": ["robpy/preprocessing/utils.py: wrapping_transformation"]}
{"id": "C27", "title": "Rescaled wrapping reproduces location and scale exactly", "statement": "For every column whose wrapped values are not all equal, wrapping_transformation(rescale=True) returns data whose mean is exactly the given location and whose (population) standard deviation is exactly the given scale.", "quantifier": "all columns, all locations, all positive scales", "why_tests_cant": "Identity over a continuum of inputs.", "anchors": ["robpy/preprocessing/utils.py: wrapping_transformation"]}
{"id": "C28", "title": "DataCleaner only removes rows and columns", "statement": "For every frame, on a fresh cleaner the output of transform consists of the input cells (infinities replaced by missing) at the retained row and column labels in the original order; every removed column is reported in dropped_columns and every removed row in dropped_rows, and nothing that is reported is present in the output.", "quantifier": "all frames, all configurations", "why_tests_cant": "Quantifies over all frames and configurations.", "anchors": ["robpy/preprocessing/data_cleaner.py: DataCleaner.transform", "robpy/preprocessing/data_cleaner.py: DataCleaner.dropped_columns", "robpy/preprocessing/data_cleaner.py: DataCleaner.dropped_rows"]}
{"id": "C29", "title": "DataCleaner output respects the missing-value thresholds", "statement": "After transform, every retained column has a missing fraction below max_missing_frac_cols and every retained row has a missing fraction below max_missing_frac_rows, measured on the output.", "quantifier": "all frames, all thresholds, all orders of cleaning", "why_tests_cant": "The two passes interact; violating frames need particular NaN patterns.", "anchors": ["robpy/preprocessing/data_cleaner.py: DataCleaner._set_missing_cols_and_rows"]}
{"id": "C30", "title": "DataCleaner.transform does not depend on earlier transforms", "statement": "For a fitted cleaner, the result of transform(B) is the same whether or not transform(A) was called before.", "quantifier": "all histories of transform calls", "why_tests_cant": "Quantifies over call histories.", "anchors": ["robpy/preprocessing/data_cleaner.py: DataCleaner._set_missing_cols", "robpy/preprocessing/data_cleaner.py: DataCleaner._set_missing_rows"]}
{"id": "C31", "title": "Mahalanobis distances are affine invariant and a true distance", "statement": "For every invertible A and vector b, the Mahalanobis distances of X*A^T+b with respect to A*mu+b and A*S*A^T equal those of X with respect to mu and S; for positive definite S they are non-negative and vanish exactly at mu.", "quantifier": "all data, all dimensions, all invertible A", "why_tests_cant": "Continuum of matrices.", "anchors": ["robpy/utils/distance.py: mahalanobis_distance"]}
{"id": "C32", "title": "inverse_submatrix returns the inverse of the selected submatrix", "statement": "For every invertible matrix A with inverse A_inv and every list of distinct indices for which the selected submatrix is invertible, the result is the inverse of A[indices, indices], whichever of the three code paths is taken.", "quantifier": "all dimensions, all index lists", "why_tests_cant": "Branches depend on the number of indices relative to the dimension and on their order.", "anchors": ["robpy/utils/general.py: inverse_submatrix"]}
{"id": "C33", "title": "truncated_covariance returns a symmetric matrix with eigenvalues at least the bound", "statement": "For every symmetric matrix and bound, truncated_covariance is symmetric, result - min_eigenvalue*I is positive semidefinite, and a matrix which already satisfies the bound is returned unchanged (so the operation is idempotent).", "quantifier": "all dimensions, all symmetric matrices, all bounds", "why_tests_cant": "Continuum of matrices.", "anchors": ["robpy/covariance/utils/alter_covariance.py: truncated_covariance"]}
{"id": "C34", "title": "covariance_to_correlation gives a proper correlation matrix", "statement": "For every positive semidefinite matrix with positive diagonal the result is symmetric, has unit diagonal, entries in [-1,1], is positive semidefinite and is invariant under positive rescaling of the variables.", "quantifier": "all dimensions, all PSD matrices", "why_tests_cant": "Continuum of matrices.", "anchors": ["robpy/covariance/utils/alter_covariance.py: covariance_to_correlation"]}
{"id": "C35", "title": "C-step never increases the covariance determinant", "statement": "For every data set, every subset of h rows with non-singular covariance, the C-step of FastMCD/DetMCD (the h rows with smallest distance) yields a subset whose covariance determinant is not larger.", "quantifier": "all data sets, all dimensions, all subsets", "why_tests_cant": "A mathematical theorem about all data sets; a test can only fail to find a counterexample.", "anchors": ["robpy/covariance/mcd.py: FastMCD._perform_c_step", "robpy/covariance/mcd.py: DetMCD._perform_c_step"]}
{"id": "C36", "title": "The MCD estimate has converged", "statement": "When FastMCD or DetMCD returns, the best subset is a fixed point of the C-step up to the tolerance: one more C-step would lower the determinant by less than the tolerance.", "quantifier": "all data sets, all random draws, all tolerances", "why_tests_cant": "Convergence of the `while True` loop is a property of every execution.", "anchors": ["robpy/covariance/mcd.py: FastMCD.calculate_covariance", "robpy/covariance/mcd.py: DetMCD.calculate_covariance"]}
{"id": "C37", "title": "FastMCD accepts every documented alpha", "statement": "For every n and every integer alpha between n/2 and n, and every float between 0.5 and 1, FastMCD.fit does not raise ValueError because of alpha, and every partition and the full data use a subset size between n//2 and n.", "quantifier": "all n, all alpha, all numbers of partitions", "why_tests_cant": "The failing region (integer alpha with n>600 or explicit partitions) is a joint condition.", "anchors": ["robpy/covariance/mcd.py: FastMCD._get_h", "robpy/covariance/mcd.py: FastMCD._partition_data", "robpy/covariance/mcd.py: FastMCD.calculate_covariance"]}
{"id": "C38", "title": "FastMCD keeps the best candidate", "statement": "For every list of candidate subsets, the subset that FastMCD/DetMCD reports has a determinant not larger than the determinant of any candidate that was considered, and selecting the n_best subsets keeps exactly the smallest ones.", "quantifier": "all candidate lists", "why_tests_cant": "All candidate lists including ties.", "anchors": ["robpy/covariance/mcd.py: DetMCD.calculate_covariance", "robpy/covariance/mcd.py: FastMCD.calculate_covariance"]}
{"id": "C39", "title": "FastMCD is affine equivariant", "statement": "For the same random draws, FastMCD on X*A^T+b selects the same observations as on X and reports location A*loc+b and covariance A*S*A^T.", "quantifier": "all data sets, all invertible A, all random draws", "why_tests_cant": "Continuum of transformations.", "anchors": ["robpy/covariance/mcd.py: FastMCD.calculate_covariance", "robpy/covariance/mcd.py: FastMCD._perform_c_step"]}
{"id": "C40", "title": "Drawing an initial subset always ends", "statement": "For every data set and every random draws, the search for a non-singular initial subset stops: it returns a subset with non-zero determinant or raises ValueError after all rows are used.", "quantifier": "all data sets, all random draws", "why_tests_cant": "A `while` loop over random draws.", "anchors": ["robpy/covariance/mcd.py: FastMCD._get_subset"]}
{"id": "C41", "title": "Kendall covariance is a valid covariance matrix", "statement": "For every data set without constant columns, KendallTau's matrix is symmetric, positive semidefinite, with the squared scale estimates on the diagonal, and the implied correlations are in [-1,1].", "quantifier": "all data sets, all dimensions, all scale estimates", "why_tests_cant": "Positive semidefiniteness is a claim about every quadratic form.", "anchors": ["robpy/covariance/kendall.py: KendallTau.calculate_covariance"]}
{"id": "C42", "title": "OGK returns a symmetric positive semidefinite matrix", "statement": "For every data set, every number of iterations and every scale/location estimator, the raw OGK covariance is symmetric and positive semidefinite, and positive definite when all robust scales of the orthogonalised data are positive.", "quantifier": "all data sets, all estimators, all iteration counts", "why_tests_cant": "Positive semidefiniteness for arbitrary plug-in estimators.", "anchors": ["robpy/covariance/ogk.py: OGK.calculate_covariance"]}
{"id": "C43", "title": "A failed refit leaves the estimator unchanged", "statement": "If fit raises on a RobustCovariance that was fitted before, location_ and covariance_ still describe the previous fit.", "quantifier": "all histories of fit calls, all points of failure", "why_tests_cant": "Quantifies over histories and failure points.", "anchors": ["robpy/covariance/base.py: RobustCovariance.fit"]}
{"id": "C44", "title": "CellMCD keeps at least h unflagged cells per column and never marks a missing cell as clean", "statement": "After every C-step, every column of W has at least h ones, and W is 0 at every missing cell, provided the input passed the data check.", "quantifier": "all data sets, all states of the iteration", "why_tests_cant": "Invariant over all iterations.", "anchors": ["robpy/covariance/cellmcd.py: CellMCD._update_W", "robpy/covariance/cellmcd.py: CellMCD._check_data"]}
{"id": "C45", "title": "CellMCD returns a consistent state", "statement": "The location, covariance and flag matrix W returned by the C-steps belong to the same iteration, and the objective of the returned state is not larger than that of any earlier iteration.", "quantifier": "all executions of the iteration", "why_tests_cant": "The in-place update of W matters only on the branch where the objective increases.", "anchors": ["robpy/covariance/cellmcd.py: CellMCD._C_steps_until_convergence", "robpy/covariance/cellmcd.py: CellMCD._update_W"]}
{"id": "C46", "title": "CellMCD predictions are the conditional means and variances", "statement": "For every row and every pattern of observed cells the predictions and conditional variances reported by CellMCD are the conditional expectation and variance of the cell given the other observed cells under the fitted Gaussian.", "quantifier": "all rows, all 2^p patterns, all positive definite covariances", "why_tests_cant": "All patterns and matrices; different code paths for none, some and all cells missing.", "anchors": ["robpy/covariance/cellmcd.py: CellMCD._make_predictions", "robpy/covariance/cellmcd.py: CellMCD._predict_all_missing", "robpy/covariance/cellmcd.py: CellMCD._predict_no_missing"]}
{"id": "C47", "title": "Flag cap of the initial DDCW estimator", "statement": "InitialDDCW replaces at most (1-alpha)*n cells of each column by imputed values because they are outlying (alpha as raised to the minimum for n rows); with the default alpha these are at most a quarter.", "quantifier": "all data sets, all alpha in [0.5,1]", "why_tests_cant": "Depends on the joint choice of alpha and data.", "anchors": ["robpy/covariance/initial_ddcw.py: InitialDDCW.calculate_covariance"]}
{"id": "C48", "title": "cellMCD objective: grouping rows by pattern changes nothing", "statement": "The objective computed per missingness pattern equals the sum over the rows of the row-wise penalised log-likelihood terms.", "quantifier": "all data sets, all W matrices", "why_tests_cant": "All groupings of rows.", "anchors": ["robpy/covariance/utils/cellmcd_utils.py: objective_function"]}
{"id": "C49", "title": "LTS C-step never increases the loss", "statement": "For every data set, every model and every subset size, fitting least squares on the h observations with the smallest squared residuals does not increase the LTS loss.", "quantifier": "all data sets, all starting models, all h", "why_tests_cant": "A mathematical theorem about all data sets.", "anchors": ["robpy/regression/lts.py: FastLTSRegression._apply_C_step", "robpy/regression/lts.py: FastLTSRegression._get_h_subset"]}
{"id": "C50", "title": "LTS C-steps until convergence always terminate", "statement": "For every data set, starting model and tolerance>=0 the loop that applies C-steps until the loss stops decreasing terminates, and the returned loss is at most the starting loss.", "quantifier": "all data sets, all starting points, all tolerances >= 0", "why_tests_cant": "Termination of a `while True` loop for every input.", "anchors": ["robpy/regression/lts.py: FastLTSRegression._apply_C_steps_untill_convergence"]}
{"id": "C51", "title": "FastLTS reports the best of its candidates", "statement": "The fitted FastLTS model has a loss not larger than that of any of the candidate models that were iterated to convergence.", "quantifier": "all candidate lists, all orders", "why_tests_cant": "All candidate lists including ties.", "anchors": ["robpy/regression/lts.py: FastLTSRegression.fit", "robpy/regression/lts.py: FastLTSRegression._apply_initial_C_steps"]}
{"id": "C52", "title": "FastLTS subset size rule", "statement": "For every n>p and alpha in [0.5,1], the subset size h satisfies (n+p+1)//2 <= h <= n and h=n for alpha=1.", "quantifier": "all n, p, alpha", "why_tests_cant": "Joint condition on n, p, alpha.", "anchors": ["robpy/regression/lts.py: FastLTSRegression.fit"]}
{"id": "C53", "title": "FastLTS reweighting survives exact fits and large outlier fractions", "statement": "For every data set the reweighting step keeps at least one observation (it never passes an empty sample to the least-squares fit).", "quantifier": "all data sets, including those where h points lie exactly on a hyperplane", "why_tests_cant": "The failing inputs are degenerate for continuous random tests.", "anchors": ["robpy/regression/lts.py: FastLTSRegression.fit"]}
{"id": "C54", "title": "LTS correction factor", "statement": "For every n and p the finite-sample correction factor is 1 at alpha=1, is continuous in alpha, and ValueError is raised exactly when alpha is outside [0.5,1].", "quantifier": "all n, p, alpha", "why_tests_cant": "Piecewise formula with a join at 0.875.", "anchors": ["robpy/regression/lts.py: get_correction_factor"]}
{"id": "C55", "title": "MM iteration solves the weighted least-squares problem", "statement": "Each iteration of MMRegression returns the coefficients and intercept minimising the weighted sum of squared residuals with the current weights.", "quantifier": "all data sets, all weights", "why_tests_cant": "A minimisation claim over all coefficients and data sets.", "anchors": ["robpy/regression/mm.py: MMRegression.fit"]}
{"id": "C56", "title": "S-estimator scale solves the M-scale equation", "statement": "The scale iteration of SRegression with the default rho and b has a positive fixed point, i.e. the reported scale s approaches a solution of mean(rho(r/s)) = b.", "quantifier": "all residual vectors, all starting scales", "why_tests_cant": "A numerical test of two iterations cannot see that the equation has no solution.", "anchors": ["robpy/regression/s.py: SRegression._get_scale"]}
{"id": "C57", "title": "LTS is regression, scale and affine equivariant", "statement": "For the same random draws FastLTSRegression on (X, a*y + X*v + c) selects the same observations as on (X, y) and its coefficients and intercept are a*beta+v and a*intercept+c.", "quantifier": "all data sets, all a<>0, v, c", "why_tests_cant": "Continuum of transformations.", "anchors": ["robpy/regression/lts.py: FastLTSRegression.fit"]}
{"id": "C58", "title": "PCA scores and orthogonal distances decompose the distance to the centre", "statement": "For orthonormal components, the squared distance of an observation to the centre is the sum of its squared scores and its squared orthogonal distance; projecting twice is the same as projecting once; every observation in the subspace has orthogonal distance 0.", "quantifier": "all data, all dimensions, all orthonormal component matrices", "why_tests_cant": "Continuum of inputs.", "anchors": ["robpy/pca/base.py: RobustPCA.transform", "robpy/pca/base.py: RobustPCA.project"]}
{"id": "C59", "title": "Automatic number of components is the smallest that explains enough variance", "statement": "When n_components is None, the chosen k is the least number of components whose explained variance ratio reaches k_min_var_explained.", "quantifier": "all eigenvalue lists, all thresholds", "why_tests_cant": "argmax over a boolean array silently returns 0 if nothing matches.", "anchors": ["robpy/pca/robpca.py: ROBPCA.fit", "robpy/pca/spca.py: PCALocantore.fit"]}
{"id": "C60", "title": "ROBPCA centre is robust", "statement": "The centre reported by ROBPCA stays bounded when a minority of the observations is replaced by arbitrary values.", "quantifier": "all data sets, all outlier values", "why_tests_cant": "The outliers range over all reals.", "anchors": ["robpy/pca/robpca.py: ROBPCA.fit"]}
{"id": "C61", "title": "Stahel-Donoho outlyingness uses n_dir directions", "statement": "With a fixed random seed, outlyingness is the maximum over n_dir independently drawn directions; increasing n_dir explores more directions.", "quantifier": "all data sets, all seeds, all n_dir", "why_tests_cant": "A seeded test reproduces the same number whatever the number of directions.", "anchors": ["robpy/utils/outlyingness.py: stahel_donoho", "robpy/utils/outlyingness.py: _get_random_direction"]}
{"id": "C62", "title": "Stahel-Donoho outlyingness is invariant under shifts and rescaling", "statement": "For fixed directions, the outlyingness is non-negative and does not change if all observations are shifted by a vector or multiplied by a non-zero number.", "quantifier": "all data sets, all shifts and factors", "why_tests_cant": "Continuum of transformations.", "anchors": ["robpy/utils/outlyingness.py: stahel_donoho"]}
{"id": "C63", "title": "l1median terminates and returns a point in the convex hull", "statement": "For every data set l1median returns, and each coordinate of the result lies between the minimum and maximum of that coordinate.", "quantifier": "all data sets", "why_tests_cant": "Non-termination happens exactly when an iterate coincides with an observation.", "anchors": ["robpy/utils/median.py: l1median"]}
{"id": "C64", "title": "l1median iterations never increase the sum of distances", "statement": "Each iteration of l1median starting from a point that is not an observation does not increase the sum of Euclidean distances to the observations.", "quantifier": "all data sets, all iterates", "why_tests_cant": "A theorem about all data sets.", "anchors": ["robpy/utils/median.py: l1median"]}
{"id": "C65", "title": "DDC.predict agrees with DDC.fit", "statement": "For every data set, predict on the training data returns exactly the flags computed by fit, and predict has no effect on the fitted state.", "quantifier": "all data sets and configurations", "why_tests_cant": "Two separate code paths must agree for every input.", "anchors": ["robpy/outliers/ddc.py: DDC.fit", "robpy/outliers/ddc.py: DDC.predict"]}
{"id": "C66", "title": "DDC.impute changes only flagged or missing cells", "statement": "impute returns the input cell wherever the cell is neither missing nor flagged (flagged cells are only changed with impute_outliers=True), and all other cells are replaced by the prediction rounded to three decimals.", "quantifier": "all data sets, all flags", "why_tests_cant": "All positions.", "anchors": ["robpy/outliers/ddc.py: DDC.impute"]}
{"id": "C67", "title": "DDC min_correlation decides which variables take part in predictions", "statement": "For every data set and every min_correlation m, a prediction of a cell is the weighted average of the slope predictions of exactly the variables whose absolute correlation is at least m.", "quantifier": "all data sets, all m", "why_tests_cant": "A hard-coded constant agrees with the default value of the parameter.", "anchors": ["robpy/outliers/ddc.py: DDC._get_predicted_values", "robpy/outliers/ddc.py: DDC._get_slopes"]}
{"id": "C68", "title": "Using an unfitted model raises the documented error", "statement": "Calling predict or impute on a DDC before fit raises the documented ValueError, for every input.", "quantifier": "all inputs, all histories without a successful fit", "why_tests_cant": "Quantifies over histories.", "anchors": ["robpy/outliers/ddc.py: DDC.predict"]}
{"id": "C69", "title": "get_logger never duplicates handlers", "statement": "After any sequence of get_logger calls for the same name, the logger has exactly one handler of its own, with the level of the last call.", "quantifier": "all call histories", "why_tests_cant": "Quantifies over histories of calls.", "anchors": ["robpy/utils/logging.py: get_logger"]}
{"id": "C70", "title": "Tau returns a finite location for finite data", "statement": "For every non-empty finite sample Tau().fit(X).location is a finite number.", "quantifier": "all non-empty finite samples", "why_tests_cant": "Only samples with more than half ties trigger the zero division.", "anchors": ["robpy/univariate/tau.py: Tau._calculate"]}
{"id": "C71", "title": "OneStepWrapping location stays inside the data and is equivariant", "statement": "For every sample whose initial UnivariateMCD scale is finite and non-zero, OneStepWrapping().fit(X).location is finite and lies between min(X) and max(X); location and scale follow a*X+b for every a>0.", "quantifier": "all samples with non-zero initial scale, all a>0 and b", "why_tests_cant": "Universally quantified over samples; the weight sum must never vanish.", "anchors": ["robpy/univariate/onestep_m.py: OneStepWrapping._calculate"]}
{"id": "C72", "title": "RobustScaler fit is atomic", "statement": "For every scale estimator, a RobustScaler.fit that raises leaves the locations and scales of the previous successful fit in place.", "quantifier": "all estimators that may raise on some column, all previous states, all data", "why_tests_cant": "Depends on which column raises and on the state left by an earlier fit; a test fixes one column and one history.", "anchors": ["robpy/preprocessing/scaling.py: RobustScaler.fit"]}
{"id": "C73", "title": "Power transform of an integer array equals that of the float array", "statement": "For every lambda and every integer array, RobustPowerTransformer(standardize=False) with the Yeo-Johnson method transforms the array like the float array with the same values.", "quantifier": "all lambda, all integer arrays", "why_tests_cant": "Depends on the dtype of the input and on lambda; for some lambda (e.g. 1) the results agree.", "anchors": ["robpy/preprocessing/transfo.py: RobustPowerTransformer._transf_yeojohnson"]}
{"id": "C74", "title": "DataCleaner keeps exactly the good columns", "statement": "A fresh DataCleaner fitted and applied to a frame keeps exactly those columns that are numeric, have more than min_unique_values different non-missing values, a MAD of the finite values that is not <= min_abs_scale, are not the row numbers 0,1,2,... and are not reported for missing values.", "quantifier": "all frames, all configurations", "why_tests_cant": "Boundary cases (exactly min_unique_values values, MAD equal to the bound) and interactions of the criteria over all frames.", "anchors": ["robpy/preprocessing/data_cleaner.py: DataCleaner.fit", "robpy/preprocessing/data_cleaner.py: DataCleaner.transform"]}
{"id": "C75", "title": "Data a power transformer was fitted on can be transformed", "statement": "Whenever RobustPowerTransformer.fit(x) succeeds, whatever was fitted before and whatever the method, transform(x) does not raise and returns as many values.", "quantifier": "all data, all methods, all earlier fits", "why_tests_cant": "The chosen family depends on the data and on the history; Box-Cox rejects non-positive values.", "anchors": ["robpy/preprocessing/transfo.py: RobustPowerTransformer.fit", "robpy/preprocessing/transfo.py: RobustPowerTransformer.transform"]}
{"id": "C76", "title": "The convergence loop of FastMCD and DetMCD always ends", "statement": "For every data set, every value of `tolerance` (also zero or negative) and every candidate subset, the `while True` loop of C-steps ends; no fit hangs.", "quantifier": "all data sets, all dimensions, all tolerances, all starting subsets, all ways to break ties in argsort", "why_tests_cant": "Non-termination cannot be observed by finitely many runs; ties in the distances could make the index arrays alternate.", "anchors": ["robpy/covariance/mcd.py: FastMCD.calculate_covariance", "robpy/covariance/mcd.py: DetMCD.calculate_covariance"]}
{"id": "C77", "title": "alpha equal to 1 or n gives the classical estimates", "statement": "If `alpha` equals 1 or the number of rows, as int or as float, FastMCD and DetMCD report the mean and the classical covariance of all rows whatever the other settings and draws; for any other alpha they report an h-subset based fit.", "quantifier": "all data sets, all configurations, all random draws", "why_tests_cant": "Early return combined with two numeric types and all other options; tests fix one of them.", "anchors": ["robpy/covariance/mcd.py: FastMCD.calculate_covariance", "robpy/covariance/mcd.py: DetMCD.calculate_covariance"]}
{"id": "C78", "title": "Partitions of FastMCD neither lose nor repeat rows", "statement": "The parts FastMCD works on, in order, are exactly the data; there are as many as requested (default: five above 600 rows, else one), and their sizes differ by at most one; zero parts are rejected.", "quantifier": "all data sets, all numbers of partitions", "why_tests_cant": "Depends on the remainder of n by the number of parts, for all n.", "anchors": ["robpy/covariance/mcd.py: FastMCD._partition_data"]}
{"id": "C79", "title": "Correction and reweighting of MCD compute what is documented", "statement": "After the consistency correction the median squared distance of all rows equals the chi-square median; with reweighting the reported location and covariance are mean and (scaled) covariance of exactly the rows with squared distance below the 0.975 quantile, at least half of the rows when the correction is on; without reweighting the raw fit is reported.", "quantifier": "all data sets, all four option combinations, all best subsets", "why_tests_cant": "Quantifies over all data; the selected rows depend on strict comparisons and on a median.", "anchors": ["robpy/covariance/mcd.py: FastMCD._correct_covariance", "robpy/covariance/mcd.py: FastMCD.calculate_covariance", "robpy/covariance/mcd.py: DetMCD.calculate_covariance"]}
{"id": "C80", "title": "FastMCD works for every positive number of initial subsets", "statement": "With n_initial_subsets >= 1, n_best_subsets >= 1 a FastMCD fit never fails with an IndexError, for any number of partitions.", "quantifier": "all data sets, all configurations, all draws", "why_tests_cant": "Interaction of two integer options and the data size (five partitions appear by themselves above 600 rows).", "anchors": ["robpy/covariance/mcd.py: FastMCD.calculate_covariance"]}
{"id": "C81", "title": "A covariance estimator can be fitted whenever its estimate exists", "statement": "`fit` of a RobustCovariance succeeds on every non-empty finite data set for which the estimator computes a regular matrix, whatever the number of columns.", "quantifier": "all estimators, all data sets, all numbers of columns", "why_tests_cant": "Quantifies over estimators and dimensions; tests use two or more columns.", "anchors": ["robpy/covariance/base.py: RobustCovariance.fit", "robpy/utils/distance.py: mahalanobis_distance"]}
{"id": "C82", "title": "The location of a robust covariance estimator is robust", "statement": "Replacing one row of a data set by arbitrary values cannot move `location_` of KendallTau or WrappingCovariance arbitrarily far.", "quantifier": "all data sets, all replacement rows", "why_tests_cant": "Unboundedness over all replacement values cannot be seen from finitely many runs.", "anchors": ["robpy/covariance/base.py: RobustCovariance.fit", "robpy/covariance/kendall.py: KendallTau", "robpy/covariance/wrapping.py: WrappingCovariance"]}
{"id": "C83", "title": "assume_centered is respected", "statement": "With `assume_centered=True` the location after a successful fit is the zero vector, for FastMCD, OGK and WrappingCovariance.", "quantifier": "all data sets, all settings", "why_tests_cant": "Universal over data and settings.", "anchors": ["robpy/covariance/base.py: RobustCovariance.fit", "robpy/covariance/mcd.py: FastMCD", "robpy/covariance/ogk.py: OGK"]}
{"id": "C84", "title": "OGK follows changes of units and origin", "statement": "Multiplying the columns by positive factors and shifting them changes the location and covariance reported by OGK accordingly, with and without reweighting, for equivariant location and scale estimators.", "quantifier": "all data sets, all factors and shifts, all iteration counts, all equivariant estimators", "why_tests_cant": "Equality for a continuum of transformations and for all plug-in estimators.", "anchors": ["robpy/covariance/ogk.py: OGK.calculate_covariance"]}
{"id": "C85", "title": "Kendall correlations depend on ranks only", "statement": "Strictly increasing transformations of the columns do not change the correlations stored by KendallTau.", "quantifier": "all data sets, all strictly increasing functions", "why_tests_cant": "Quantifies over all increasing functions.", "anchors": ["robpy/covariance/kendall.py: KendallTau.calculate_covariance"]}
{"id": "C86", "title": "Wrapping covariance is a valid covariance matrix with the robust variances on its diagonal", "statement": "The matrix of WrappingCovariance is symmetric and positive semidefinite, and the variance of a column whose wrapped values are not all equal is n/(n-1) times its squared scale estimate.", "quantifier": "all data sets, all tuning constants, all location and scale estimates", "why_tests_cant": "Positive semidefiniteness is a claim about every quadratic form.", "anchors": ["robpy/covariance/wrapping.py: WrappingCovariance.calculate_covariance"]}
{"id": "C87", "title": "OGK reweighting uses exactly the rows that are not outlying", "statement": "With reweighting, the location and covariance reported by OGK are the mean and the classical covariance of exactly those rows whose Mahalanobis distance from the raw OGK estimates is below sqrt(chi2_beta / chi2_0.5) times the median distance.", "quantifier": "all data sets, any location and scale estimator, any number of iterations, any eigendecomposition", "why_tests_cant": "tests check a number on one data set; they cannot tell which rows enter it for all data", "anchors": ["robpy/covariance/ogk.py: OGK.calculate_covariance"]}
{"id": "C88", "title": "Robust distances belong to the reported location and covariance", "statement": "After a successful fit the covariance is the matrix computed by the estimator and the robust distance of every row is its Mahalanobis distance with respect to the reported location and covariance.", "quantifier": "all estimators without NaN support, all data, all histories of the object", "why_tests_cant": "tests look at plots or single values, not at the relation for all data and estimators", "anchors": ["robpy/covariance/base.py: RobustCovariance.fit"]}
{"id": "C89", "title": "Non-robust distances are the classical Mahalanobis distances", "statement": "After a successful fit the distances shown as 'Non-robust distance' in the distance-distance plot are the Mahalanobis distances from the sample mean with the sample covariance.", "quantifier": "all estimators without NaN support, all data", "why_tests_cant": "only distances shown in a plot; no test covers them", "anchors": ["robpy/covariance/base.py: RobustCovariance.fit, distance_distance_plot"]}
{"id": "C90", "title": "l1median moves with the data", "statement": "Shifting all observations by a vector shifts the result of l1median by it; multiplying all observations by a non-zero number multiplies the result if the tolerance is rescaled too; the order of the observations does not matter; in all cases it terminates for one data set exactly if it does for the other.", "quantifier": "all data sets, all shifts and factors, all orders of the rows", "why_tests_cant": "continuum of transformations; termination included", "anchors": ["robpy/utils/median.py: l1median"]}
{"id": "C91", "title": "Every observation gets a numeric outlyingness", "statement": "stahel_donoho returns a finite number for every observation of a data set with distinct rows.", "quantifier": "all data sets with distinct rows, all seeds, all numbers of directions", "why_tests_cant": "NaN and inf appear only if a projection has MAD 0 or two drawn points coincide, which random continuous data does not show", "anchors": ["robpy/utils/outlyingness.py: stahel_donoho", "robpy/utils/outlyingness.py: _get_random_direction"]}
{"id": "C92", "title": "Principal components are orthonormal", "statement": "After fit the columns of components_ of a robust PCA estimator are orthonormal.", "quantifier": "all data sets on which fit succeeds, all settings, both estimators", "why_tests_cant": "needs all data; the columns come from products of several rotations", "anchors": ["robpy/pca/robpca.py: ROBPCA.fit", "robpy/pca/spca.py: PCALocantore.fit"]}
{"id": "C93", "title": "The number of components, the component matrix and the explained variances agree", "statement": "After fit n_components, the number of columns of components_ and the number of explained variances are equal.", "quantifier": "all data sets on which fit succeeds, all requested numbers of components not larger than the number of columns", "why_tests_cant": "they differ only on data whose cleaned part has lower rank than requested", "anchors": ["robpy/pca/robpca.py: ROBPCA.fit", "robpy/pca/spca.py: PCALocantore.fit"]}
{"id": "C94", "title": "A robust PCA object can be refitted", "statement": "Fitting an object a second time, on other data, gives the result a fresh object with the same parameters gives.", "quantifier": "all pairs of data sets, all settings", "why_tests_cant": "depends on what the first fit writes into the parameters", "anchors": ["robpy/pca/robpca.py: ROBPCA.fit", "robpy/pca/spca.py: PCALocantore.fit"]}
{"id": "C95", "title": "Explained variances do not increase", "statement": "explained_variance_ lists the variances from the largest to the smallest.", "quantifier": "all data sets on which fit succeeds, both estimators", "why_tests_cant": "on most data the order of the eigenvalues used for sorting and of the robust variances agrees", "anchors": ["robpy/pca/robpca.py: ROBPCA.fit", "robpy/pca/spca.py: PCALocantore.fit"]}
{"id": "C96", "title": "Shifting the data shifts only the centre of a robust PCA", "statement": "Adding a constant vector to all observations adds it to location_ and changes nothing else, failures included.", "quantifier": "all data sets, all vectors, all settings, both estimators", "why_tests_cant": "continuum of shifts", "anchors": ["robpy/pca/robpca.py: ROBPCA.fit", "robpy/pca/spca.py: PCALocantore.fit"]}
{"id": "C97", "title": "A robust PCA reports leading eigenvectors of the covariance it is documented to use", "statement": "The explained variances of ROBPCA are the largest eigenvalues of the covariance of a subset of the documented size that holds the least outlying observations; without the final MCD step its components are leading orthonormal eigenvectors of the covariance of the observations within the orthogonal-distance cutoff. The components of PCALocantore are leading eigenvectors of the spatial sign covariance around the l1-median and its explained variances are the squared MADs of the scores.", "quantifier": "all data sets on which fit succeeds, all settings, all outlyingness values including NaN and inf", "why_tests_cant": "an unsorted or transposed eigenvector matrix can pass on diagonal examples", "anchors": ["robpy/pca/robpca.py: ROBPCA.fit", "robpy/pca/spca.py: PCALocantore.fit"]}
{"id": "C98", "title": "FastLTS reports a least-squares fit of its subset", "statement": "The model found by the search is a least-squares fit of the h observations reported with it and its loss is the mean squared residual over them; no observation set of that size gives this model a smaller loss than the h smallest squared residuals do.", "quantifier": "all data sets on which the search succeeds, all settings, all random draws, with or without initial weights", "why_tests_cant": "model, subset and loss are updated at three places; a stale one agrees with the others on well-behaved data", "anchors": ["robpy/regression/lts.py: FastLTSRegression.fit"]}
{"id": "C99", "title": "The outcome of the FastLTS search is decided by sizes and settings alone", "statement": "With a tolerance that is not negative, the search succeeds exactly if alpha is in [0.5,1], there is at least one column, there are more rows than columns, and at least one initial subset and one best model are requested. Otherwise the error is ValueError or IndexError, depending on which of these fails.", "quantifier": "all data sets, all settings, all random draws", "why_tests_cant": "quantifies over all data: no data values make the search fail or run forever", "anchors": ["robpy/regression/lts.py: FastLTSRegression.fit"]}
{"id": "C100", "title": "The coefficients and the scale FastLTS reports belong together", "statement": "Without reweighting the model is a least-squares fit of the reported subset and the scale is the correction factor times the root mean squared residual over it. With reweighting the model is a least-squares fit of exactly those observations whose residual from the raw model is within the cutoff times the standard deviation of all residuals, and the scale belongs to those observations.", "quantifier": "all data sets on which fit succeeds, all settings, all random draws", "why_tests_cant": "two models and two scales exist during fit", "anchors": ["robpy/regression/lts.py: FastLTSRegression.fit"]}
{"id": "C101", "title": "The scale FastLTS reports is not negative", "statement": "After a successful fit the scale is a number that is not negative.", "quantifier": "all data sets on which fit succeeds, all settings", "why_tests_cant": "fails only for few rows per column, where the fitted formula of the correction factor leaves its range", "anchors": ["robpy/regression/lts.py: FastLTSRegression.fit", "robpy/regression/lts.py: get_correction_factor_reweighting"]}
{"id": "C102", "title": "S-regression predicts row by row", "statement": "After SRegression.fit with an intercept there is one linear function such that predict returns its values, for every non-empty batch of rows; a single row can be predicted too.", "quantifier": "all training data, all parameters with fit_intercept=True, all batches of rows", "why_tests_cant": "Depends on the values in the batch that is predicted: tests predict the training rows.", "anchors": ["robpy/regression/s.py: SRegression.fit, SRegression.predict"]}
{"id": "C103", "title": "S-regression returns an exact fit of the majority", "statement": "If one coefficient vector fits more than half of the observations exactly and no other one does, SRegression with the default parameters returns it.", "quantifier": "all data sets with such a vector, all random draws", "why_tests_cant": "The iteration has a cycle on such data; a test with noise never has an exactly fitted majority.", "anchors": ["robpy/regression/s.py: SRegression.fit, SRegression._i_step, SRegression._get_scale"]}
{"id": "C104", "title": "What S-regression reports", "statement": "The coefficients reported by SRegression with a bisquare rho minimise the sum of squared residuals weighted with the bisquare weights of the previous residuals at the reported scale, the reported scale is the smallest among the improved starts, and with relative_tolerance=0 and a positive scale the coefficients solve the estimating equations of the S-estimator.", "quantifier": "all data sets, all parameters, all random draws, all runs that end", "why_tests_cant": "A statement about all coefficient vectors and all intermediate models.", "anchors": ["robpy/regression/s.py: SRegression.fit, SRegression._i_step"]}
{"id": "C105", "title": "S-regression raises no error", "statement": "For at least one start, enough rows and at least one scale iteration, the search of SRegression raises no exception.", "quantifier": "all data sets with more rows than columns, all rho functions, all parameters with positive counts", "why_tests_cant": "The handler of numerical failures is reached only for data on which the first step fails.", "anchors": ["robpy/regression/s.py: SRegression.fit"]}
{"id": "C106", "title": "MM-regression is fitted whenever its initial estimator is", "statement": "If the initial estimator has been fitted with a positive scale, MMRegression.fit raises no exception.", "quantifier": "all data sets, all initial estimators, all rho functions, all iteration counts", "why_tests_cant": "Depends on a residual that is exactly zero in some iteration.", "anchors": ["robpy/regression/mm.py: MMRegression.fit"]}
{"id": "C107", "title": "MM-regression is scale and shift equivariant", "statement": "Multiplying the targets by a positive number and adding a constant changes the fitted MM model accordingly, provided the initial estimator is equivariant and epsilon is multiplied too.", "quantifier": "all data sets, all multipliers and constants, all initial estimators", "why_tests_cant": "A statement about all pairs of transformed data sets; the error is of the size of the intercept times the weight deficit.", "anchors": ["robpy/regression/mm.py: MMRegression.fit"]}
{"id": "C108", "title": "What MM-regression reports", "statement": "The model reported by MMRegression is the last of at most max_iterations reweighted fits that start from the residuals of the initial estimator; if fewer were made, the last one changed every residual by less than epsilon and no earlier one did.", "quantifier": "all data sets, all initial estimators, all iteration counts and tolerances", "why_tests_cant": "A statement about every run of the loop, including runs that stop at the limit.", "anchors": ["robpy/regression/mm.py: MMRegression.fit"]}
{"id": "C109", "title": "DDC verdicts on a row depend on that row only", "statement": "After a DDC.fit that returns, the cell flags, residuals and row flag that predict gives for a row are functions of that row alone, whatever the other rows of the data set are.", "quantifier": "all fitted objects, all new data sets, all arithmetics including IEEE", "why_tests_cant": "Every composition of the batch would have to be tried.", "anchors": ["robpy/outliers/ddc.py: DDC.predict"]}
{"id": "C110", "title": "DDC.fit completes on data that pass its check", "statement": "DDC.fit returns on every numeric data set with enough distinct values per column, whatever the pattern of missing cells, if the scale estimator gives every column a location and a non-zero scale.", "quantifier": "all data sets, all patterns of missing cells, all configurations", "why_tests_cant": "The patterns that fail (an empty row, a pair of columns with a single common row) are rare in test data.", "anchors": ["robpy/outliers/ddc.py: DDC.fit", "robpy/outliers/ddc.py: DDC._check_data_conditions"]}
{"id": "C111", "title": "A DDC.fit that raises leaves the fitted object usable", "statement": "If fit raises on an object fitted before, predict behaves afterwards as it did before.", "quantifier": "all fitted objects, all data sets on which fit raises, all new data", "why_tests_cant": "Quantifies over histories; only the combination of a good fit, a failing fit and a predict shows it.", "anchors": ["robpy/outliers/ddc.py: DDC.fit", "robpy/outliers/ddc.py: DDC._fit_scaler"]}
{"id": "C112", "title": "verbose has no effect on DDC.fit but output", "statement": "DDC.fit(X, verbose=True) has the same outcome and leaves the same object as DDC.fit(X).", "quantifier": "all data sets and configurations", "why_tests_cant": "Depends on the number of columns; tests run quietly.", "anchors": ["robpy/outliers/ddc.py: DDC._robust_correlation"]}
{"id": "C113", "title": "DDC does not depend on the units of the columns", "statement": "If every column is given in other units (a*x+b) and the scale estimator follows the change of units, DDC.fit returns exactly when it did before, with the same correlations, slopes, cell flags, residuals and row flags, and predictions in the new units; predict on data in the new units gives the same verdicts. The default scale estimator follows the change of units unless a MAD is below its threshold.", "quantifier": "all data sets, all units, all configurations", "why_tests_cant": "A statement about pairs of data sets over a continuum of transformations.", "anchors": ["robpy/outliers/ddc.py: DDC.fit", "robpy/outliers/ddc.py: DDC.predict"]}
{"id": "C114", "title": "DDC rejects exactly the columns its message names", "statement": "DDC.fit rejects numeric data exactly if a column has fewer than three distinct values, as its message says.", "quantifier": "all numeric data sets", "why_tests_cant": "An off-by-one at the boundary of a data-dependent count.", "anchors": ["robpy/outliers/ddc.py: DDC._check_data_conditions"]}
{"id": "C115", "title": "The correlation matrix of DDC is symmetric with entries in [-1, 1]", "statement": "After DDC.fit the correlation matrix is symmetric with ones on the diagonal, and every entry is NaN or lies between -1 and 1.", "quantifier": "all data sets and configurations", "why_tests_cant": "All pairs of columns with all patterns of outlying and missing cells.", "anchors": ["robpy/outliers/ddc.py: DDC._robust_correlation"]}
{"id": "C116", "title": "DDC does not predict a cell from itself", "statement": "The prediction DDC makes for a cell of a row does not depend on the value of that cell (it may be missing or arbitrarily far off), only on the other cells of the row.", "quantifier": "all fitted objects, all rows, all values of the cell", "why_tests_cant": "A continuum of values of the cell.", "anchors": ["robpy/outliers/ddc.py: DDC._get_predicted_values"]}
{"id": "C117", "title": "CellMCD's C-steps never increase the penalised likelihood", "statement": "From the first C-step on, no C-step increases the penalised observed likelihood, and each column of the flag matrix is chosen optimally among the admissible ones given the other columns.", "quantifier": "all data sets, all states of the iteration, all positive definite starts", "why_tests_cant": "A statement about every step of every run; the code contains a branch for an increase that hides a violation.", "anchors": ["robpy/covariance/cellmcd.py: CellMCD._C_step", "robpy/covariance/cellmcd.py: CellMCD._update_W"]}
{"id": "C118", "title": "CellMCD returns a result for every max_c_steps and crit", "statement": "Data that pass the check and a positive definite initial estimate give a result for every max_c_steps >= 0 and every positive crit.", "quantifier": "all data sets, all parameter values", "why_tests_cant": "The values for which the loop is never entered are not in the tests; the proof covers every run.", "anchors": ["robpy/covariance/cellmcd.py: CellMCD._C_steps_until_convergence"]}
{"id": "C119", "title": "CellMCD's imputed data are complete and keep the clean cells", "statement": "After every successful fit X_imputed equals X at the cells with W = 1, equals the prediction at the others, has no missing value, and W is 0 at every missing cell.", "quantifier": "all data sets with any pattern of missing cells, all parameter values", "why_tests_cant": "All patterns and all runs of the iteration.", "anchors": ["robpy/covariance/cellmcd.py: CellMCD.calculate_covariance"]}
{"id": "C120", "title": "CellMCD's covariance is positive definite and its conditional deviations are positive", "statement": "After every successful fit covariance_ is positive definite and every entry of conditional_stds is positive, so that residuals are defined.", "quantifier": "all data sets, all successful fits", "why_tests_cant": "Concerns every covariance the iteration can reach.", "anchors": ["robpy/covariance/cellmcd.py: CellMCD.calculate_covariance"]}
{"id": "C121", "title": "CellMCD follows a change of units", "statement": "If every column is multiplied by a positive constant and shifted, W stays the same and location, covariance, predictions, conditional deviations and imputed data are those of the new units.", "quantifier": "all data sets, all positive factors and shifts", "why_tests_cant": "All factors; an absolute tolerance only matters for extreme units.", "anchors": ["robpy/covariance/cellmcd.py: CellMCD.calculate_covariance"]}
{"id": "C122", "title": "Repeated fits of one CellMCD object are independent", "statement": "The outcome of fit does not depend on earlier calls of fit, successful or not, on the same object.", "quantifier": "all histories of calls, all data sets", "why_tests_cant": "Quantifies over histories with data sets of different sizes.", "anchors": ["robpy/covariance/cellmcd.py: CellMCD.calculate_covariance"]}
{"id": "C123", "title": "DDC's slopes and deshrinkage factors are trimmed least-squares slopes", "statement": "After every successful fit the slope for predicting one column from another is NaN if min_correlation excludes the pair, and otherwise the least-squares slope through the origin of the pairs of usable cells whose residual from the median ratio is at most cutoff times the robust scale of these residuals. The deshrinkage factor is the same slope of the standardised cells on the raw predictions.", "quantifier": "all data frames with any missing cells, all cutoffs and minimal correlations", "why_tests_cant": "Optimality over all slopes and for all data.", "anchors": ["robpy/outliers/ddc.py: DDC._robust_slope", "robpy/outliers/ddc.py: DDC._get_slopes", "robpy/outliers/ddc.py: DDC.fit"]}
{"id": "C124", "title": "DDC rejects data with another number of columns", "statement": "After every successful fit predict and impute on a frame with another number of columns raise ValueError and leave the object unchanged.", "quantifier": "all fitted objects, all data frames of another width", "why_tests_cant": "All widths and all states.", "anchors": ["robpy/outliers/ddc.py: DDC.predict", "robpy/outliers/ddc.py: DDC.impute"]}
{"id": "C125", "title": "Which cells the initial DDCW estimator replaces in a capped column", "statement": "If more cells of a column are flagged than the cap allows, the cells that are replaced by imputed values are those with the largest absolute residuals: no cell that is kept has a larger residual than a replaced one, and missing cells do not use up places.", "quantifier": "all columns, all missing patterns, all alpha in [0.5,1]", "why_tests_cant": "The ordering puts missing residuals first; a test needs many missing cells in a capped column.", "anchors": ["robpy/covariance/initial_ddcw.py: InitialDDCW.calculate_covariance"]}
{"id": "C126", "title": "InitialDDCW returns a positive definite covariance and its inverse", "statement": "Whenever InitialDDCW.fit returns, the covariance is positive definite, precision times covariance is the identity, and in units of the scales found by DDC every eigenvalue of the covariance is at least min_eigenvalue.", "quantifier": "all data sets with any missing cells, all alpha, all positive min_eigenvalue", "why_tests_cant": "All data sets.", "anchors": ["robpy/covariance/initial_ddcw.py: InitialDDCW.calculate_covariance", "robpy/covariance/utils/alter_covariance.py: truncated_covariance"]}
{"id": "C127", "title": "One variable is rejected", "statement": "On data with one column InitialDDCW.fit and CellMCD.fit raise an exception; they never return an estimate.", "quantifier": "all data sets with one column, all parameters", "why_tests_cant": "All data sets and parameters.", "anchors": ["robpy/covariance/initial_ddcw.py: InitialDDCW.calculate_covariance", "robpy/covariance/cellmcd.py: CellMCD.calculate_covariance"]}
{"id": "C128", "title": "Data on a line are rejected by the initial DDCW estimator", "statement": "If all rows lie on one line and no cell is flagged, InitialDDCW raises an exception; it never returns a covariance.", "quantifier": "all numbers of variables, all complete data sets on a line", "why_tests_cant": "All lines, all dimensions.", "anchors": ["robpy/covariance/initial_ddcw.py: InitialDDCW.calculate_covariance"]}
{"id": "C129", "title": "Casewise outliers of the initial DDCW estimator", "statement": "A complete row whose distance divided by the median distance of the complete rows, times the median of the chi-square distribution, exceeds the 0.99 quantile is left out of the second covariance, and no other complete row is.", "quantifier": "all data sets with any missing cells", "why_tests_cant": "A single missing cell anywhere in the data disables the step; no warning is given.", "anchors": ["robpy/covariance/initial_ddcw.py: InitialDDCW.calculate_covariance"]}
{"id": "C130", "title": "Casewise deletion does not depend on the units of the variables", "statement": "Which rows the initial DDCW estimator leaves out of the second covariance does not change if the variables are expressed in other units.", "quantifier": "all standardised data sets, all correlation matrices, all positive units", "why_tests_cant": "All pairs of units.", "anchors": ["robpy/covariance/initial_ddcw.py: InitialDDCW.calculate_covariance"]}
{"id": "C131", "title": "DetMCD does not depend on the units of the variables", "statement": "If every variable is expressed in another unit (a positive factor and a shift per column), DetMCD returns the location and covariance in the new units, selects the same best subset and the same weights, and raises exactly when it raised before.", "quantifier": "all data sets with at least one row, all positive factors, all shifts, all settings with a positive tolerance, all orderings of ties", "why_tests_cant": "All units and all data sets; the starting values pass through standardisation, tanh, ranks, spatial signs, OGK and matrix square roots.", "anchors": ["robpy/covariance/mcd.py: DetMCD.calculate_covariance, DetMCD._get_initial_best_subsets"]}
{"id": "C132", "title": "DetMCD returns an estimate for data in general position", "statement": "If no hyperplane contains more than p of the rows and there are at least 4p-3 rows, DetMCD with a documented alpha returns a location and a positive definite covariance.", "quantifier": "all numbers of columns p >= 2, all such data sets, all documented alpha", "why_tests_cant": "Whether one of the six starting estimates breaks down depends on single rows; random test data never hit the medians of all columns at once.", "anchors": ["robpy/covariance/mcd.py: DetMCD.calculate_covariance"]}
{"id": "C133", "title": "DetMCD with few rows", "statement": "With at most 2p rows DetMCD raises an exception instead of returning an estimate, unless alpha asks for the classical estimate.", "quantifier": "all data sets with n <= 2p, all settings", "why_tests_cant": "All data sets; a singular covariance of rounded numbers may be inverted without an exception.", "anchors": ["robpy/covariance/mcd.py: DetMCD.calculate_covariance"]}
{"id": "C134", "title": "DetMCD with one column", "statement": "On data with one column DetMCD raises an exception instead of returning an estimate, unless alpha asks for the classical estimate.", "quantifier": "all data sets with one column, all settings", "why_tests_cant": "All data sets.", "anchors": ["robpy/covariance/mcd.py: DetMCD.calculate_covariance"]}
{"id": "C135", "title": "Variances of InitialDDCW", "statement": "After a successful InitialDDCW fit with a positive min_eigenvalue, the location is the one DDC found, and the variance of every variable lies between s^2 and (1 + min_eigenvalue) s^2, where s is the scale DDC gave that variable.", "quantifier": "all data sets with or without missing cells, all alpha, all positive min_eigenvalue, all fits that return", "why_tests_cant": "All data sets; the variances pass through projections, wrapping, a correlation matrix and a truncation of its eigenvalues.", "anchors": ["robpy/covariance/initial_ddcw.py: InitialDDCW.calculate_covariance"]}
{"id": "C136", "title": "Principal directions of InitialDDCW", "statement": "The covariance of InitialDDCW is, in the units of DDC's scales, the correlation matrix (small eigenvalues raised to min_eigenvalue, none by more than that) of a matrix with, in every principal direction of the imputed standardised rows with variance above min_eigenvalue, the squared robust scale of the projected rows as variance, and none in the other directions.", "quantifier": "all data sets, all eigenvector routines and univariate estimators, all fits that return; the variance in a direction is claimed when two different projected rows are in the central part", "why_tests_cant": "All eigenvector routines and data; a test would compare with another implementation of the same steps.", "anchors": ["robpy/covariance/initial_ddcw.py: InitialDDCW.calculate_covariance", "robpy/covariance/utils/alter_covariance.py: truncated_covariance, covariance_to_correlation", "robpy/preprocessing/utils.py: wrapping_transformation"]}
{"id": "C137", "title": "The diagnostic plot of a regression with one feature", "statement": "outlier_map can be called for a robust regression with a single feature (simple regression).", "quantifier": "all data sets with one feature, all settings of outlier_map, all seeds", "why_tests_cant": "A test with one feature would find the exception on one data set; that every call with one feature raises, for all settings, is a statement about all data.", "anchors": ["robpy/regression/base.py: RobustRegression.outlier_map", "robpy/utils/distance.py: mahalanobis_distance", "robpy/covariance/mcd.py: FastMCD"]}
{"id": "C138", "title": "Standardised residuals are numbers", "statement": "Every observation gets a standardised residual that is not NaN in the data returned by outlier_map.", "quantifier": "all data sets, all fitted models, all settings", "why_tests_cant": "Depends on exact equality of residuals; random test data have no exact fit.", "anchors": ["robpy/regression/base.py: RobustRegression.outlier_map"]}
{"id": "C139", "title": "The diagnostic plot does not depend on units", "statement": "If the features undergo a nonsingular affine transformation and the residuals a change of unit, outlier_map returns the same standardised residuals, distances and thresholds.", "quantifier": "all data sets, all nonsingular matrices, shifts and positive factors, all settings, all seeds (the same for both calls)", "why_tests_cant": "All transformations and data sets.", "anchors": ["robpy/regression/base.py: RobustRegression.outlier_map", "robpy/covariance/mcd.py: FastMCD"]}
{"id": "C140", "title": "Vertical outliers are not masked", "statement": "If more than half of the residuals are at most e in absolute value, every observation with a residual above 2 e t / 0.6745 has a standardised residual beyond the vertical threshold t, whatever the other residuals are.", "quantifier": "all data sets, all fitted models, all thresholds t >= 0, all e, robust_scaling=True", "why_tests_cant": "All contaminations of up to half of the observations.", "anchors": ["robpy/regression/base.py: RobustRegression.outlier_map"]}
{"id": "C141", "title": "outlier_map accepts pandas objects", "statement": "outlier_map returns the same for X as DataFrame and y as Series as for the corresponding arrays.", "quantifier": "all data sets, all settings", "why_tests_cant": "The tests and the example notebook convert y by hand; all combinations of containers and settings are covered.", "anchors": ["robpy/regression/base.py: RobustRegression.outlier_map", "robpy/utils/distance.py: mahalanobis_distance"]}
{"id": "C142", "title": "The transformed bulk is standardised", "statement": "After RobustPowerTransformer(standardize=True).fit(x) there is a non-empty group of the observations whose transformed values have mean 0 and standard deviation 1, and lambda is what the optimiser finds on that group.", "quantifier": "all data, all methods, all settings, every optimiser, as long as the fitted scales are positive", "why_tests_cant": "For every optimiser and data set; a test sees one optimum.", "anchors": ["robpy/preprocessing/transfo.py: RobustPowerTransformer.fit, transform, _reweighted_max_likelihood_robust"]}
{"id": "C143", "title": "Far outliers stay visible after the power transformation", "statement": "In a sample of at least four observations, one that is far enough from the others gets a transformed value beyond the cutoff sqrt(chi2.ppf(quantile, 1)).", "quantifier": "all samples, all numbers of steps, every optimiser that stays inside its bounds", "why_tests_cant": "A limit over all positions of the outlier, for every optimiser.", "anchors": ["robpy/preprocessing/transfo.py: RobustPowerTransformer.fit, _reweighted_max_likelihood_robust"]}
{"id": "C144", "title": "Every number of reweighting steps works", "statement": "fit does not fail because of the value of nsteps.", "quantifier": "all non-negative nsteps, all data, all methods", "why_tests_cant": "The tests use the default number of steps.", "anchors": ["robpy/preprocessing/transfo.py: _reweighted_max_likelihood_robust"]}
{"id": "C145", "title": "The power transformer does not depend on units", "statement": "With standardize=True, multiplying the data by a positive constant (for yeojohnson also adding a constant) changes neither lambda nor the transformed values nor whether fit raises.", "quantifier": "all data, all factors and shifts, all settings, every optimiser (a function of objective and range)", "why_tests_cant": "All factors, shifts and data sets.", "anchors": ["robpy/preprocessing/transfo.py: RobustPowerTransformer.fit, transform, _fit_boxcox, _fit_yeojohnson"]}
{"id": "C146", "title": "The power transformer does not depend on the order of the observations", "statement": "Permuting the observations does not change what fit does, for every method.", "quantifier": "all data, all permutations, all settings", "why_tests_cant": "All permutations.", "anchors": ["robpy/preprocessing/transfo.py: RobustPowerTransformer.fit"]}
{"id": "C147", "title": "method='auto' is one of the explicit methods", "statement": "A fit with method='auto' equals the fit of the explicit method it chose; Box-Cox is chosen for strictly positive data only, and for such data the criterion of the chosen fit is not above that of the other fit.", "quantifier": "all data on which the fit succeeds, all settings, every optimiser", "why_tests_cant": "All data sets and optimisers.", "anchors": ["robpy/preprocessing/transfo.py: RobustPowerTransformer.fit, _get_method, _robnormality"]}
{"id": "C148", "title": "The reweighted estimate of lambda is maximum likelihood", "statement": "For every lambda, the objective minimised in the reweighting step is, up to a constant that does not depend on lambda, the smallest negative log-likelihood over all means and variances in the model that the transformed observations are normal.", "quantifier": "all lambdas, all data with positive variance after the transformation (strictly positive data for Box-Cox), both families", "why_tests_cant": "An identity and an inequality over all means, variances and lambdas.", "anchors": ["robpy/preprocessing/transfo.py: _estimate_max_likelihood"]}
{"id": "C149", "title": "Standardised residuals of CellMCD are standardised", "statement": "After CellMCD.fit, the residual of a cell is a number exactly when the cell was observed; within a variable the residuals are the raw residuals divided by one common positive number, and their robust scale is 1.", "quantifier": "all data sets on which fit returns, all settings, all variables whose raw residuals have non-zero robust scale", "why_tests_cant": "All data and all patterns of missing cells.", "anchors": ["robpy/covariance/cellmcd.py: CellMCD.fit (residuals)", "robpy/univariate/onestep_m.py: OneStepWrapping"]}
{"id": "C150", "title": "Residuals and named rows of CellMCD do not depend on units", "statement": "Multiplying variables by positive constants and shifting them changes neither the residuals nor which rows the plots of cell_MCD_plot name.", "quantifier": "all data, all positive factors and shifts, all plot types and cutoffs; the variables are not nearly constant", "why_tests_cant": "All factors, shifts and data sets; plots are not tested for contents.", "anchors": ["robpy/covariance/cellmcd.py: CellMCD.cell_MCD_plot", "robpy/covariance/utils/cellmcd_visualization_utils.py: get_thresholds, annote_outliers, annote_outliers_ellipse"]}
{"id": "C151", "title": "The drawn ellipse and the named rows of the bivariate plot agree", "statement": "The ellipse of the bivariate plot consists of the points at the robust distance of the cutoff, and (without annotation_quantile) the rows named are exactly the fully observed rows outside the ellipse.", "quantifier": "all positive definite covariances, all centres, all radii, all angles, all rows", "why_tests_cant": "A statement about a whole curve and all points.", "anchors": ["robpy/covariance/utils/cellmcd_visualization_utils.py: draw_ellipse, annote_outliers_ellipse", "robpy/covariance/cellmcd.py: CellMCD.cell_MCD_plot"]}
{"id": "C152", "title": "Rows named by the other plots of CellMCD lie outside the dashed lines", "statement": "Without annotation_quantile the other plots name exactly the rows outside the drawn lines; the index plot names exactly the rows with an absolute residual above the cutoff. With annotation_quantile a plot names the rows it would name if it were drawn with that quantile, and the points and lines stay the same. A plot raises only for an object that is not fitted, an unknown plottype, a bivariate plot without second variable, or a bivariate plot with row names and a singular 2x2 covariance (which includes giving the same variable twice).", "quantifier": "all data, results, cutoffs, plot types and variables", "why_tests_cant": "All data sets and results; the tests do not look at annotations.", "anchors": ["robpy/covariance/cellmcd.py: CellMCD.cell_MCD_plot", "robpy/covariance/utils/cellmcd_visualization_utils.py: annote_outliers, get_thresholds"]}
{"id": "C153", "title": "Every estimator can be cloned", "statement": "sklearn.base.clone of an estimator made by a valid constructor call gives an estimator of the same class with the same parameters (needed by cross validation, grid search and ColumnTransformer).", "quantifier": "all estimator classes, all valid parameter values, all nestings of estimators in lists and parameters", "why_tests_cant": "All classes, parameter values and nestings.", "anchors": ["robpy/preprocessing/transfo.py: RobustPowerTransformer.__init__", "robpy/outliers/ddc.py: DDC", "constructors of all estimators"]}
{"id": "C154", "title": "Fitting one MMRegression does not change another", "statement": "After fit of an MMRegression has returned, its predictions do not change when other MMRegression objects are fitted.", "quantifier": "all initial estimators, all data, all histories of later fits of other objects", "why_tests_cant": "All histories of several objects.", "anchors": ["robpy/regression/mm.py: MMRegression.__init__, fit, predict"]}
{"id": "C155", "title": "A fit of MMRegression that raises changes nothing", "statement": "If fit raises, predict afterwards does what it did before.", "quantifier": "all data, all states of the object", "why_tests_cant": "All data that make fit raise and all earlier states.", "anchors": ["robpy/regression/mm.py: MMRegression.fit, predict"]}
{"id": "C156", "title": "DetMCD starts from the six published starting sets", "statement": "DetMCD standardises each column by its median and robust scale, forms six preliminary estimates (Pearson correlation of the hyperbolic tangents, of the average ranks and of the normal scores; covariance of the spatial signs; covariance of the half of the rows with the smallest norms; OGK), re-estimates scale along the eigenvectors of each and location as the median of the sphered data, and takes the half of the rows closest to it; the fit is made from the set of smallest determinant among the six.", "quantifier": "all data sets on which the starting sets exist, all settings", "why_tests_cant": "All data sets; a wrong intermediate estimate still gives a plausible fit.", "anchors": ["robpy/covariance/mcd.py: DetMCD.calculate_covariance, _get_initial_best_subsets, _Qn_scale, _tau_scale"]}
{"id": "C157", "title": "Every regression estimator of the package can be the initial estimator of MMRegression", "statement": "MMRegression(initial_estimator=E).fit(X, y) works for every regression estimator E of the package: if the fit of E succeeds and the MM iterations started from its fitted values and its scale succeed, fit returns the result of these iterations. (The code violates this for FastLTSRegression: its predict returns an array of shape (n, 1), so y - predict(X) has shape (n, n) and the fit raises ValueError for every data set, whatever the parameters. For SRegression and MMRegression, whose predictions have shape (n,), it holds.)", "quantifier": "for all data sets, all initial fits with their predictions as a vector or as a column, all rho functions, tolerances and positive numbers of iterations", "why_tests_cant": "a test tries one data set and one estimator; that the combination fails for every data set and every setting, and works for every initial fit with flat predictions, is a statement about all shapes and values", "anchors": ["robpy/regression/mm.py: MMRegression.fit", "robpy/regression/lts.py: FastLTSRegression.predict", "robpy/regression/s.py: SRegression.predict"]}
{"id": "C158", "title": "The outlier map of a fitted PCA does not depend on units, rotation or order", "statement": "If the observations are rotated, rescaled and shifted, and the fitted PCA object is moved along with them, plot_outlier_map returns the same score distances and draws the same vertical line; the orthogonal distances and the horizontal line are rescaled by the same factor; so the same observations lie beyond the lines. Another order of the observations only changes the order of the points.", "quantifier": "for all fitted objects (also incomplete ones, where the same exception is raised), all data sets with at least one row, all positive factors, all orthogonal matrices and shifts, all permutations", "why_tests_cant": "the plotting method has no return value for the cutoffs that a test could compare, and invariance under a group of transformations concerns infinitely many data sets", "anchors": ["robpy/pca/base.py: RobustPCA.plot_outlier_map", "robpy/pca/base.py: get_od_cutoff"]}
{"id": "C159", "title": "ROBPCA.fit returns a result for every permitted number of components", "statement": "For at least three observations, at least two principal directions, a permitted alpha and a number of components between 1 and the number of principal directions, ROBPCA(final_MCD_step=False).fit(X) returns a fitted object. (The code violates this. With as many components as directions all orthogonal distances are 0, no observation is below the cutoff and the fit raises LinAlgError on every data set in exact arithmetic; the same happens if more than half of the orthogonal distances coincide, for example if a majority of the observations lies on a subspace. It holds if no orthogonal distance occurs too often, which is so for data in general position.)", "quantifier": "for all data sets, all results of the library calls that meet their contract, all seeds, all alpha between 0.5 and 1 and all numbers of components", "why_tests_cant": "a test with random data sees rounding noise instead of exact zeros; that a call fails for every data set, and a condition under which it never fails, are universal statements", "anchors": ["robpy/pca/robpca.py: ROBPCA.fit", "robpy/pca/base.py: get_od_cutoff", "robpy/univariate/mcd.py: UnivariateMCD"]}
{"id": "C160", "title": "PCALocantore gives corresponding results in other units", "statement": "If PCALocantore is fitted on data and on the same data in other units (multiplied by a positive number and shifted), the two fits correspond: same components, same number of components, explained variances multiplied by the squared factor, centre in the new units, and the outlier map names the same observations. (The code violates this: the l1-median, the centre of the data, stops when a step is smaller than the fixed number 1e-7, so in units that make the numbers small it stops too early. It holds if the tolerance is given in the units of the data.)", "quantifier": "for all data sets with at least one row, all positive factors, shifts, thresholds and eigenvalue routines", "why_tests_cant": "the effect is only visible when the data are small compared with the tolerance; a test fixes one unit", "anchors": ["robpy/pca/spca.py: PCALocantore.fit", "robpy/utils/median.py: l1median"]}
{"id": "C161", "title": "Fitting a regression estimator leaves the program's random numbers alone", "statement": "A fit of FastLTSRegression or SRegression gives the same result whatever random numbers the program has drawn before, and leaves the random numbers the program draws afterwards with numpy's global generator as they would have been without the fit; in particular a simulation study that draws a data set, fits and repeats sees independent data sets.", "quantifier": "all data sets, settings, states of the global generator, numbers of rounds of a study", "why_tests_cant": "the effect is in the state of another module; a test sees one fit and fixes the seed itself", "anchors": ["robpy/regression/lts.py: FastLTSRegression._get_initial_model", "robpy/regression/lts.py: FastLTSRegression._apply_initial_C_steps", "robpy/regression/s.py: SRegression._get_initial_models"]}
{"id": "C162", "title": "Scale estimates do not implode under contamination", "statement": "If fewer than half of the observations are arbitrary and the others differ from each other by at least delta, then Qn, the MAD, the raw scale of UnivariateMCD and the scale of Tau are at least a positive multiple of delta that does not depend on the arbitrary observations.", "quantifier": "all samples, all contaminations of at most n//2 - 1 observations, all subset sizes h of UnivariateMCD with at least two clean observations in every subset, all constants of Tau", "why_tests_cant": "the worst placement of the contamination (on top of clean observations) has to be considered for every sample size", "anchors": ["robpy/univariate/qn.py: Qn._calculate", "robpy/univariate/tau.py: Tau._calculate", "robpy/univariate/mcd.py: UnivariateMCD._calculate"]}
{"id": "C163", "title": "A scale is zero only if a majority of the observations coincides", "statement": "The scales of Tau, Qn and OneStepM are zero only if one value occurs in more than half of the observations, so that dividing by them is safe for all other data.", "quantifier": "all samples of at least two observations, all correction settings and tuning constants", "why_tests_cant": "depends on the whole pattern of ties and on the units, test data have few ties", "anchors": ["robpy/univariate/qn.py: Qn._calculate", "robpy/univariate/tau.py: Tau._calculate", "robpy/univariate/onestep_m.py: OneStepM._calculate"]}
{"id": "C164", "title": "KendallTau, OGK and WrappingCovariance do not depend on the order of the rows", "statement": "Fitting one of the deterministic covariance estimators to the same rows in another order raises the same exception or none and gives the same location, covariance and correlation; every row keeps its robust and its classical distance.", "quantifier": "all data sets including those with NaN, all permutations of the rows, all settings, all location and scale estimators that do not depend on the order of a sample", "why_tests_cant": "a permutation test can only try some orders; results that depend on the first or last row pass on symmetric examples", "anchors": ["robpy/covariance/kendall.py: KendallTau.calculate_covariance", "robpy/covariance/ogk.py: OGK.calculate_covariance", "robpy/covariance/wrapping.py: WrappingCovariance.calculate_covariance", "robpy/covariance/base.py: RobustCovariance.fit"]}
{"id": "C165", "title": "DDC does not depend on the order of the rows", "statement": "Fitting DDC to the same rows in another order raises the same exception or none; scales, correlations, slopes and deshrinkage factors are the same, and flags, residuals, predictions and row verdicts stay with their rows.", "quantifier": "all data frames including missing and infinite cells, all permutations of the rows, all settings, all scale estimators that do not depend on the order of a sample", "why_tests_cant": "needs all permutations and all patterns of missing cells", "anchors": ["robpy/outliers/ddc.py: DDC.fit"]}
{"id": "C166", "title": "The verbosity of an object governs its own messages", "statement": "An estimator constructed with a verbosity shows exactly its messages of at least this level, no matter which other objects are constructed or fitted before or after; a regression fit with a verbosity shows exactly the messages from this level on.", "quantifier": "all histories of constructions, fits and logging configurations", "why_tests_cant": "the loggers are shared per class for the whole process; a test sees only its own history", "anchors": ["robpy/utils/logging.py: get_logger", "robpy/covariance/mcd.py: FastMCD.__init__, DetMCD.__init__", "robpy/covariance/cellmcd.py: CellMCD.__init__, calculate_covariance", "robpy/pca/robpca.py: ROBPCA.__init__, fit", "robpy/regression/lts.py: FastLTSRegression.fit", "robpy/regression/s.py: SRegression.fit"]}
{"id": "C167", "title": "KendallTau, OGK and WrappingCovariance follow a reordering of the columns", "statement": "Fitting to the same data with the columns in another order has the same outcome, the location, covariance and correlation are those of the first fit in the new order, and every row has the same robust and classical distance. For OGK this holds whenever the pairwise correlation matrix has different eigenvalues in every pass; the result then does not depend on the routine for the eigenvectors either.", "quantifier": "all data sets including those with NaN, all permutations of the columns, all settings, any routine for eigenvectors, any scale that ignores and any location that follows a change of sign", "why_tests_cant": "numerical tests use one eigenvector routine, and only some orders of the columns", "anchors": ["robpy/covariance/kendall.py: KendallTau.calculate_covariance", "robpy/covariance/ogk.py: OGK.calculate_covariance", "robpy/covariance/wrapping.py: WrappingCovariance.calculate_covariance", "robpy/covariance/base.py: RobustCovariance.fit"]}
{"id": "C168", "title": "OGK does not break down under contamination", "statement": "Let G be p-variate rows in general position (no hyperplane contains more than p of them), p >= 2. There are constants 0 < c, C and M, depending only on G, on n_iterations and on the cutoff of the reweighting, such that for every data set made of the rows of G and of any further rows, in any order, with (number of further rows) + p + 1 <= n // 2: OGK(...).fit with the default median and MAD succeeds, with or without reweighting (reweighting_beta above one half), the length of location_ squared is at most M, and all eigenvalues of covariance_ are between c and C: the outliers can neither carry the estimate away nor make it collapse. The same holds for the raw estimate under any location and scale estimators whose values on all projections of the data are bounded (from below for the scale).", "quantifier": "for all dimensions p >= 2, all sets of good rows in general position, all numbers of iterations, all positions and numbers of outliers up to the limit, all row orders, all eigendecompositions returned by eigh", "why_tests_cant": "The bounds must hold for outliers of every size and in every direction, through eigenvector rotations that depend on the outliers; a test tries a few outlier configurations and cannot see that a single constant serves all of them.", "anchors": ["robpy/covariance/ogk.py:OGK.calculate_covariance", "robpy/covariance/base.py:RobustCovariance.fit"]}
{"id": "C169", "title": "The L1-median does not break down under contamination", "statement": "For every eps > 0 and every set G of rows there is a bound such that whenever l1median returns for data made of the rows of G and of fewer further rows, in any order, the result lies within the bound: the centre of PCALocantore cannot be carried away by a minority of outliers.", "quantifier": "for all dimensions, all sets of good rows, all positions of a minority of outliers, all row orders", "why_tests_cant": "The outliers range over all reals; the failing configurations are those in which the starting mean is next to an observation, which random contamination in a test does not hit.", "anchors": ["robpy/utils/median.py:l1median", "robpy/pca/spca.py:PCALocantore.fit"]}
{"id": "C170", "title": "KendallTau does not break down, WrappingCovariance does not explode under contamination", "statement": "Take good rows whose columns have no ties and whose sign correlations are not degenerate. Adding arbitrary rows, fewer than half of all minus one, KendallTau gives a symmetric matrix whose eigenvalues stay between two positive numbers that depend on the good rows only. WrappingCovariance, with any outliers in the minority, gives a positive semidefinite matrix with eigenvalues below a number that depends on the good rows only, and each variance is at least the squared scale of its column unless all wrapped values of the column agree.", "quantifier": "all good rows, all outliers in any position and any number below the limit, all dimensions, all parameters of the wrapping function", "why_tests_cant": "tests add a few outliers of a few sizes; a breakdown bound concerns all of them, with constants fixed before the outliers", "anchors": ["robpy/covariance/kendall.py: KendallTau.calculate_covariance", "robpy/covariance/wrapping.py: WrappingCovariance.calculate_covariance", "robpy/preprocessing/utils.py: wrapping_transformation"]}
{"id": "C171", "title": "FastLTS does not break down under contamination", "statement": "Take good observations with features in general position. When fewer observations than the subset size leaves room for are added, of any kind, and one of the random draws consists of good observations, the coefficients FastLTSRegression reports are bounded by a number which depends on the good observations only.", "quantifier": "all good observations in general position, all outliers (features and targets) in any position, all settings, all random draws with one clean draw, all dimensions", "why_tests_cant": "the outliers range over all of space and the bound must be chosen before them; tests try some outliers of some size", "anchors": ["robpy/regression/lts.py: FastLTSRegression.fit"]}
{"id": "C172", "title": "FastMCD does not break down under contamination", "statement": "Take good rows in general position and add outliers of any kind, fewer than half of the rows less the number of columns. If one of the initial subsets FastMCD draws consists of good rows, the location it reports, and the largest eigenvalue of the covariance, are bounded by numbers which depend on the good rows and the settings only, and the smallest eigenvalue is bounded away from zero in the same sense; up to 600 rows the fit succeeds.", "quantifier": "all good rows in general position, all outliers in any position, all settings with the consistency correction or without reweighting, all random draws with one clean draw, all dimensions from 2, any number of parts", "why_tests_cant": "the outliers range over all of space and the bounds must be chosen before them; tests try some outliers of some size", "anchors": ["robpy/covariance/mcd.py: FastMCD.calculate_covariance", "robpy/covariance/base.py: RobustCovariance.fit"]}
{"id": "C173", "title": "FastMCD can be fitted when the majority of the rows is in general position", "statement": "With the default settings FastMCD returns estimates for every data set in which the rows that are in general position are a majority, whatever the other rows are and in whatever order the rows come.", "quantifier": "all data sets, all orders of the rows, all random draws", "why_tests_cant": "whether a fit fails depends on where in the data equal rows are; tests use shuffled random data", "anchors": ["robpy/covariance/mcd.py: FastMCD.calculate_covariance, FastMCD._partition_data, FastMCD._get_subset"]}
{"id": "C174", "title": "DetMCD does not break down under contamination", "statement": "If the data of DetMCD().fit consist of good rows in general position and of m arbitrary outliers, with m at most n // 2 - 2p, then with the default alpha and the default post processing the fit succeeds exactly when no row of the data consists of the medians of the columns, and the location and covariance of a fit that succeeds are within bounds (the covariance from above and away from singularity) that depend on the good rows, on m and on the settings only; no assumption on random draws is needed, because there are none.", "quantifier": "for all dimensions, all good rows in general position, all positions and values of the outliers, all row orders, every symmetric square root and eigendecomposition, every ordering of ties, every h between m + p + 1 and the number of good rows", "why_tests_cant": "bounds for all outlier values cannot be sampled; tests try some outliers at one magnitude", "anchors": ["robpy/covariance/mcd.py: DetMCD.calculate_covariance, DetMCD._get_initial_best_subsets, DetMCD._Qn_scale, DetMCD._tau_scale, DetMCD._correct_covariance"]}
{"id": "C175", "title": "S-regression does not break down when its draws are clean", "statement": "Take good observations with features in general position and fewer outliers, of any kind, than good observations (by twice the number of coefficients). When all random draws of SRegression with the default parameters consist of good observations, the reported coefficients are bounded by a number which depends on the good observations only. (The code violates this: the default b=0.5 exceeds the largest value of the default rho, so the scale shrinks until only the outliers keep a positive weight. What holds: for every number M the coefficients of all fits with a reported scale of at most M are bounded.)", "quantifier": "for all numbers of features, all good observations in general position, all positions and values of the outliers, all random draws", "why_tests_cant": "bounds for all outlier values cannot be sampled; tests try some outliers at one magnitude", "anchors": ["robpy/regression/s.py: SRegression.fit, SRegression._get_scale, SRegression._i_step, SRegression._converged"]}
{"id": "C176", "title": "Univariate locations do not break down under contamination", "statement": "If more than half of the observations lie in an interval of length L, then whatever the others are: Tau reports a scale of at most c2*L and, unless the MAD is 0, a location within c1*L of the interval; OneStepM with admissible rho functions always reports a location within k*max(1, L/0.6745) of the interval, where k depends on the rho function only, and a scale of at most b*L/(0.6745*sqrt(delta)); UnivariateMCD (if at least h observations lie in the interval) reports a location within (sqrt(h)+sqrt(cutoff*factor))*L of the interval and a variance bounded by a multiple of L^2; OneStepWrapping reports a location within that bound plus four reported scales.", "quantifier": "for all samples of any size, all intervals, all numbers and values of outliers up to the majority bound, all constants and consistency factors", "why_tests_cant": "bounds for all outlier values cannot be sampled; tests try some outliers at one magnitude", "anchors": ["robpy/univariate/tau.py: Tau._calculate", "robpy/univariate/onestep_m.py: OneStepM._calculate, OneStepWrapping._calculate", "robpy/univariate/mcd.py: UnivariateMCD._calculate, UnivariateMCD._reweighting"]}
{"id": "C177", "title": "FastLTS reports an exact fit of the majority", "statement": "Let good observations with features in general position lie exactly on a hyperplane, let the subset size h be at most their number and exceed the number of outliers by more than the number of features, and let one of the random draws consist of good observations. Then FastLTSRegression reports this hyperplane. (The code violates this with the default reweighting=True as soon as there are two outliers of different size: the further one inflates the standard deviation of the residuals, so that the nearer one enters the final least-squares fit. What holds: with reweighting=False the hyperplane is reported with scale 0; with reweighting it is when the residuals of all outliers exceed 2.24 standard deviations, in particular when there is a single outlier and at least four observations.)", "quantifier": "for all numbers of features, all hyperplanes, all good observations in general position, all outliers, all orders of the rows, all random draws", "why_tests_cant": "exactness for all positions of the outliers cannot be sampled; tests use one data set", "anchors": ["robpy/regression/lts.py: FastLTSRegression.fit"]}
{"id": "C178", "title": "The adjusted boxplot flags far outliers and keeps its box in the bulk", "statement": "If at most (n - 1) / 4 of the n observations of a column lie outside an interval [a, b], then the box of the adjusted boxplot lies in [a, b], its whiskers within 1.5 e^3 (b - a) of it, and every observation further away than that is reported as an outlier, whatever the medcouple. With one outlier more than that bound the third quartile and the upper whisker can be made arbitrarily large.", "quantifier": "for all columns, all intervals, all positions of the outliers, all values of the medcouple in [-1, 1]", "why_tests_cant": "a test fixes the contamination; the bound is about every contamination of the allowed size", "anchors": ["robpy/univariate/adjusted_boxplot.py: adjusted_boxplot"]}
{"id": "C179", "title": "RobustScaler standardises in one pass", "statement": "Whatever scale estimator of the package it is given, and for each combination of with_centering and with_scaling, RobustScaler fitted to its own output finds location 0 and scale 1 in every column, provided the estimator reports numbers and no scale 0; with both flags on the output has location exactly 0 and scale exactly 1. Missing values are allowed with ignore_nan=True.", "quantifier": "for all numbers of columns and rows, all data with or without missing values, all five kinds of estimator and their settings (min_abs_scale of OneStepM small compared with its consistency factor)", "why_tests_cant": "standardisation of arbitrary data by every estimator is a statement about equivariance; a test checks one matrix up to rounding", "anchors": ["robpy/preprocessing/scaling.py: RobustScaler.fit, transform", "robpy/univariate/mcd.py: UnivariateMCD", "robpy/univariate/tau.py: Tau", "robpy/univariate/qn.py: Qn", "robpy/univariate/onestep_m.py: OneStepM, OneStepWrapping"]}
{"id": "C180", "title": "The output of RobustScaler does not depend on units", "statement": "Changing the unit and the origin of each column (a * x + b with a > 0) before fitting and transforming with RobustScaler does not change the scaled data, provided no scale is 0 in the original units. (The code violates this for OneStepM and its subclasses: the MAD is compared with the absolute bound min_abs_scale, so that in a large enough unit the scale is reported as 0 and the output is NaN or infinite. What holds: UnivariateMCD, Tau, Qn and OneStepWrapping always, OneStepM whenever the MAD stays above min_abs_scale.)", "quantifier": "for all data with or without missing values, all changes of unit and origin per column, all five kinds of estimator and their settings", "why_tests_cant": "all changes of unit cannot be sampled", "anchors": ["robpy/preprocessing/scaling.py: RobustScaler.fit, transform", "robpy/univariate/onestep_m.py: OneStepM._calculate"]}
{"id": "C181", "title": "The Stahel-Donoho outlyingness separates far outliers that are drawn with a regular row", "statement": "Let most rows be in general position and let the outliers together with p rows be at most half of all rows, with no two rows equal. Then stahel_donoho (two points per direction) returns a number for every row; the outlyingness of the regular rows is bounded by a constant that depends on the regular rows only, whatever the outliers, the draws, the seed and the number of directions; and an outlier that is drawn together with a regular row in one of the directions gets an outlyingness above any given level once it is far enough away. So all such outliers rank above all regular rows. With other numbers of points per direction the bound for the regular rows holds as well.", "quantifier": "for all numbers of columns, all regular rows in general position, all outliers below the limit, all draws, seeds and numbers of directions", "why_tests_cant": "the outliers may be anything and the draws are random; a test fixes one contamination and one seed", "anchors": ["robpy/utils/outlyingness.py: stahel_donoho, _get_random_direction"]}
{"id": "C182", "title": "The cell map of DDC keeps labels, residuals and annotations together", "statement": "DDC.cellmap draws under each row and column label the standardised residual of a cell of X with these labels, and annotates it with the value of the same cell, also when a zoom selects rows or columns by slice or by label, in any combination and order. Without a zoom all rows and columns are drawn in their order; a slice a:b draws the labels at these positions; an index of (unique) labels draws exactly these in the requested order.", "quantifier": "for all frames, labels (unique or not), residuals, zooms and settings", "why_tests_cant": "a test looks at one zoom of one frame", "anchors": ["robpy/outliers/ddc.py: DDC.cellmap"]}
{"id": "C183", "title": "The colours of the cell map agree with the flags of DDC", "statement": "With the custom colours, the cells of DDC.cellmap that are not drawn in the neutral colour are those that DDC flags as cellwise outliers. (The code violates this: the neutral zone is fixed at residuals between -2.5 and 2.5, whatever the cutoff of the model. What holds: the colour of every residual, and that the neutral colour means an absolute residual of at most 2.5.)", "quantifier": "for all cutoffs, colour limits and residuals", "why_tests_cant": "a statement about all residuals and all cutoffs; pictures are not tested", "anchors": ["robpy/outliers/ddc.py: get_custom_cmap, DDC.cellmap, DDC._cellwise_outliers"]}
{"id": "C184", "title": "The cell map can be drawn for every positive colour limit", "statement": "DDC.cellmap of a fitted model succeeds for every positive vmax_clip, every non-empty frame of the fitted shape and every zoom by positions. (The code violates this: below 2.5 the anchors of the custom colour map are not in increasing order and matplotlib raises ValueError; a zoom to no rows raises ZeroDivisionError. What holds: the exact condition for success.)", "quantifier": "for all colour limits, frames and zooms", "why_tests_cant": "the set of all limits and zooms cannot be sampled", "anchors": ["robpy/outliers/ddc.py: get_custom_cmap, DDC.cellmap"]}
{"id": "C185", "title": "The order of the columns does not matter to DDC", "statement": "Reordering the columns of the frame given to `DDC.fit` reorders the fitted attributes and changes nothing else: when `fit` returns on a frame, it returns on the reordered frame; location, scale, correlations, slopes, predictions, deshrinkage factors, residual scales, standardised residuals, flagged cells and rescaled predictions follow the columns, and the flagged rows are the same. `predict` and `impute` on the reordered frame with that fit give the reordered result, or the same exception.", "quantifier": "every frame, every permutation of its columns, every configuration, every state of the object before `fit`, every new frame for `predict` and `impute`; exact arithmetic, any scale estimator", "why_tests_cant": "There are p! orders of p columns, and the code treats the pair (i, j) differently from (j, i): it computes the correlation for i < j only and copies it, and sums over the columns in order.", "anchors": ["robpy/outliers/ddc.py:DDC.fit", "robpy/outliers/ddc.py:DDC.predict", "robpy/outliers/ddc.py:DDC.impute", "robpy/outliers/ddc.py:DDC._robust_correlation", "robpy/outliers/ddc.py:DDC._get_predicted_values"]}
{"id": "C186", "title": "Far cells are flagged by DDC, and how far they are does not matter", "statement": "Take a data set in which some cells are far away and, in every column, fewer than half of the non-missing cells are. Beyond a bound that depends on the other cells only, moving the far cells further out (on the same side) changes nothing but the reported residuals of the far cells and the row verdicts: `DDC.fit` still returns, with the same locations, scales, correlations, slopes, deshrinkage factors, residual scales and predictions, and the same residuals and flags for all other cells. Every far cell is flagged, in every column whose residuals have a scale that is not 0. Condition on the fit: in every column, the far cells are also fewer than half of the cells whose prediction (before deshrinkage) is not 0, or there is no such cell.", "quantifier": "every data set, every set of far cells with that property, every sign pattern, every cutoff and minimal correlation, every state of the object before `fit`; exact arithmetic, the default scale estimator", "why_tests_cant": "A test uses one contaminated data set with one outlier size; that the fit is the same for every larger size, for unbounded values, is a statement about infinitely many inputs, and it depends on every step of the algorithm being robust.", "anchors": ["robpy/outliers/ddc.py:DDC.fit", "robpy/outliers/ddc.py:DDC._robust_slope", "robpy/outliers/ddc.py:DDC._robust_correlation", "robpy/outliers/ddc.py:DDC._cellwise_outliers", "robpy/univariate/onestep_m.py:CellwiseOneStepM"]}
{"id": "C187", "title": "DDC flags far cells that are a minority of their column", "statement": "Take a data set in which some cells are far away and, in every column, fewer than half of the non-missing cells are. When the far cells are beyond a bound that depends on the other cells only and `DDC.fit` returns, every far cell is flagged, in every column whose residuals have a scale that is not 0.", "quantifier": "every data set, every set of far cells with that property, every sign pattern, every positive cutoff and minimal correlation", "why_tests_cant": "A test uses one data set. The failure needs a predictor that is missing in many rows, so that the far cells, a minority of the column, are the majority of the cells with a prediction; the deshrinkage slope then fits the far cells.", "anchors": ["robpy/outliers/ddc.py:DDC.fit", "robpy/outliers/ddc.py:DDC._robust_slope", "robpy/outliers/ddc.py:DDC._cellwise_outliers"]}
{"id": "C188", "title": "DetMCD does not depend on the order of the rows", "statement": "`DetMCD(...).fit(X)` returns the same location, the same covariance, the same best subset of rows and the same mask entry for every row, or the same exception, for every order of the rows of `X`.", "quantifier": "every data set, every order of its rows, every setting", "why_tests_cant": "A test shuffles one data set. The failure needs rows at equal distances at the place where a subset is cut off, as in symmetric or rounded data; the algorithm is advertised as deterministic and order-free.", "anchors": ["robpy/covariance/mcd.py:DetMCD.calculate_covariance", "robpy/covariance/mcd.py:DetMCD._get_initial_best_subsets"]}
{"id": "C189", "title": "DetMCD follows a reflection of the data through a point", "statement": "When every row `x` is replaced by `b - x`, `DetMCD(...).fit` returns the reflected location, the same covariance, the same best subset and the same mask, or the same exception.", "quantifier": "every data set, every point b, every setting with a positive tolerance, every eigendecomposition and matrix square root, every order of ties", "why_tests_cant": "A test reflects one data set. The claim goes through ranks, normal scores, six scatter matrices and the C-steps, each of which has to treat both directions alike.", "anchors": ["robpy/covariance/mcd.py:DetMCD.calculate_covariance"]}
{"id": "C190", "title": "S-regression follows the addition of a plane to the targets and a change of the columns", "statement": "Adding a linear function `X @ g` of the columns of the design matrix to the targets adds `g` to the coefficients of `SRegression` and leaves the scale as it is; replacing the design matrix `X` by `X @ A` with an invertible `A` multiplies the coefficients by the inverse of `A` and leaves the scale and the predictions as they are; whether the fit raises or ends does not change.", "quantifier": "every sample, every invertible matrix, every vector g, every random draw, the default settings", "why_tests_cant": "Regression and affine equivariance quantify over all planes and matrices. A test with one shift of one noisy sample passes; the failure needs a sample most of which lies on a plane, where the fit to the shifted targets returns and the fit to the original ones does not.", "anchors": ["robpy/regression/s.py:SRegression.fit", "robpy/regression/s.py:SRegression._i_step", "robpy/regression/s.py:SRegression._converged"]}
{"id": "C191", "title": "S-regression follows a change of sign of the targets", "statement": "`SRegression.fit(X, -y)` has the negated coefficients and the same scale as `SRegression.fit(X, y)`, or raises the same exception, or does not end either.", "quantifier": "every sample, every setting with a positive tuning constant, both score functions, every random draw", "why_tests_cant": "The residuals alternate between `predict - y` and `y - predict` from one i-step to the next, zero residuals are replaced by a positive number and rank-deficient fits take the shortest solution; a test on one noisy sample reaches none of these.", "anchors": ["robpy/regression/s.py:SRegression.fit", "robpy/regression/s.py:SRegression._i_step"]}
{"id": "C192", "title": "S-regression depends on the order of the rows only through its draws", "statement": "Reordering the rows of the sample does not change the coefficients and the scale of `SRegression`, nor whether the fit raises or ends, as long as every start draws the same observations.", "quantifier": "every sample, every reordering, every random draw, all settings", "why_tests_cant": "The claim is about all reorderings, also with tied residuals and equal scales. A test reorders a few samples, and the random draws change with the order, so that it cannot tell the two effects apart.", "anchors": ["robpy/regression/s.py:SRegression.fit", "robpy/regression/s.py:SRegression._i_step", "robpy/regression/s.py:SRegression._get_initial_models"]}
{"id": "C193", "title": "S-regression follows a change of units of the targets", "statement": "Multiplying all targets by a positive number multiplies the coefficients and the scale of `SRegression` by this number.", "quantifier": "every sample, every positive number, every random draw, the default settings", "why_tests_cant": "The tolerances are absolute numbers, so the property fails only in units in which the targets are small, which no test with data of ordinary size meets; that it holds otherwise is a statement about all samples and all runs of the iteration.", "anchors": ["robpy/regression/s.py:SRegression.fit", "robpy/regression/s.py:SRegression._get_scale", "robpy/regression/s.py:SRegression._converged", "robpy/regression/s.py:SRegression._i_step"]}
{"id": "C194", "title": "FastLTS depends on the order of the rows only through its draws", "statement": "Reordering the rows of the sample does not change the coefficients, the intercept and the scale of `FastLTSRegression`, nor the observations in its subset, nor whether the fit raises or ends, as long as every start draws the same observations.", "quantifier": "every sample, every reordering, every random draw, all settings", "why_tests_cant": "The claim is about all reorderings. Only ties of absolute residuals can break it, which random test data never have, and the random draws change with the order, so a test cannot tell the two effects apart.", "anchors": ["robpy/regression/lts.py:FastLTSRegression.fit", "robpy/regression/lts.py:FastLTSRegression._get_h_subset", "robpy/regression/lts.py:FastLTSRegression._apply_C_step"]}
{"id": "C195", "title": "FastMCD can be fitted for every number of initial C-steps", "statement": "On rows in general position `FastMCD` returns estimates for every number `n_initial_c_steps` of initial C-steps, 0 included: the algorithm then goes on with the random subsets themselves.", "quantifier": "every sample in general position, every random draw, every sort order of ties, every number of initial C-steps", "why_tests_cant": "Tests use the default of two steps, and whether the fit returns depends on all draws. That 0 fails always, and every other number never, is a statement about all samples and draws.", "anchors": ["robpy/covariance/mcd.py:FastMCD.__init__", "robpy/covariance/mcd.py:FastMCD.calculate_covariance", "robpy/covariance/mcd.py:FastMCD._perform_multiple_c_steps"]}
{"id": "C196", "title": "FastMCD does not depend on the order of the rows", "statement": "When the same observations are drawn for the initial subsets, `FastMCD` returns the same location, covariance and raw estimates for any order of the rows.", "quantifier": "every sample and reordering of at most 600 rows (or one partition), every initial draw, every sort order of ties, every setting with at least one initial C-step and positive tolerance", "why_tests_cant": "A reordered sample changes every index on the way; whether the result is the same depends on ties between distances in every C-step, which a test on one random data set never meets.", "anchors": ["robpy/covariance/mcd.py:FastMCD.calculate_covariance", "robpy/covariance/mcd.py:FastMCD._perform_c_step", "robpy/covariance/mcd.py:FastMCD._get_initial_subsets"]}
{"id": "C197", "title": "MM-regression depends on the order of the rows only through its initial estimator", "statement": "Reordering the observations together with their initial predictions does not change the fitted `MMRegression`. With `SRegression` as initial estimator the result is the same whenever the same observations are drawn.", "quantifier": "every sample and reordering, every rho, tolerance and number of iterations, every initial prediction and scale, every draw", "why_tests_cant": "Tests fit one data set in one order; that no reordering changes the model, also when the fit raises, is a statement about all samples and all iterations.", "anchors": ["robpy/regression/mm.py:MMRegression.fit", "robpy/regression/s.py:SRegression.fit"]}
{"id": "C198", "title": "MM-regression follows rotations and shifts of the features", "statement": "When the features are rotated, reflected, reordered or shifted, and the predictions of the initial estimator stay the same, the predictions of the fitted `MMRegression` stay the same: its coefficients are rotated and the intercept absorbs the shift.", "quantifier": "every sample, every orthogonal matrix and shift, every rho, tolerance and number of iterations, every initial fit", "why_tests_cant": "A test on centred data cannot see it: the error of the intercept depends on the weights of all observations and on the position of the origin.", "anchors": ["robpy/regression/mm.py:MMRegression.fit", "robpy/regression/mm.py:MMRegression.predict"]}
{"id": "C199", "title": "The robust PCA estimators do not depend on the order of the rows", "statement": "`PCALocantore` gives the same centre, components and variances for every order of the rows. `ROBPCA` does when the directions of its outlyingness use the same observations, the h rows of smallest outlyingness are determined, and its final FastMCD does not depend on the order either. The Stahel-Donoho outlyingness of an observation does not depend on its position.", "quantifier": "every sample and reordering, every threshold, number of components and alpha, every draw, every order of ties outside the h-th value", "why_tests_cant": "Reordering changes all indices on the way (draws, sorting, filtering); one reordered data set in a test cannot show that none of the steps depends on positions.", "anchors": ["robpy/pca/spca.py:PCALocantore.fit", "robpy/pca/robpca.py:ROBPCA.fit", "robpy/utils/outlyingness.py:stahel_donoho"]}
{"id": "C200", "title": "The l1-median follows rotations of the data", "statement": "If the rows are rotated or reflected, `l1median` returns the rotated or reflected point.", "quantifier": "every data set without restriction on its size, every orthogonal matrix, both calls returning", "why_tests_cant": "The stopping rule compares coordinates; for one data set and one rotation both runs usually stop in the same pass or differ by less than the tolerance of the test.", "anchors": ["robpy/utils/median.py:l1median"]}
{"id": "C201", "title": "PCALocantore follows rotations, reorderings and sign changes of the columns", "statement": "If the columns are reordered and some change their sign, `PCALocantore` returns the same variances and number of components, the correspondingly changed centre and the correspondingly changed components up to their signs, or the same error, when the eigenvalues of the spatial sign covariance matrix are different. The same holds for every rotation for which the l1-median follows (C200).", "quantifier": "every data set, every order and signs of the columns, every rotation, every threshold or number of components, every choice of eigenvectors by the eigenvalue routine", "why_tests_cant": "The eigenvectors are chosen by an external routine up to sign; only an argument about uniqueness covers every choice.", "anchors": ["robpy/pca/spca.py:PCALocantore.fit", "robpy/utils/median.py:l1median"]}
{"id": "C202", "title": "The order of the rows and columns does not matter to DataCleaner", "statement": "If the rows and the columns of the training table and of the table to be cleaned are put in another order, `DataCleaner` keeps the same rows and columns with the same cells and reports the same dropped labels, or raises the same error.", "quantifier": "every table, every order of rows and columns, every configuration and earlier state of the cleaner", "why_tests_cant": "Whether labels or positions decide shows only for tables on which the two differ; a test uses a few orders of one table.", "anchors": ["robpy/preprocessing/data_cleaner.py:DataCleaner.fit", "robpy/preprocessing/data_cleaner.py:DataCleaner.transform"]}
{"id": "C203", "title": "CellMCD depends on the order of the rows only through its start and through ties", "statement": "If the rows of the data are put in another order, and the initial estimate is the same and no two cells of a column tie at the border of the h cells that must stay clean, then `CellMCD` returns the same location and covariance, and its flags, predictions, residuals and imputed data are those of the first fit with the rows in the new order, or it raises the same error. With alpha = 1 no condition on ties is needed; with a tie the order can decide which cell is flagged.", "quantifier": "every data matrix with missing cells, every order of its rows, every number of steps, every configuration", "why_tests_cant": "The flags of a column, the patterns of the rows and the stopping rule all pass through sorted or enumerated rows; a test permutes one data set.", "anchors": ["robpy/covariance/cellmcd.py:CellMCD.calculate_covariance", "robpy/covariance/cellmcd.py:CellMCD._update_W", "robpy/covariance/cellmcd.py:CellMCD._C_step"]}
{"id": "C204", "title": "The initial estimate of CellMCD does not depend on the order of the rows", "statement": "If the rows of the data are put in another order, `InitialDDCW` returns the same location, covariance and precision or raises the same error, unless the residuals of a column with too many flagged cells tie at the border of the quarter of the rows that is replaced. Hence `CellMCD` with this start depends on the order of the rows only through such ties and ties in its own C-steps.", "quantifier": "every data matrix with missing cells, every order of its rows, every alpha and eigenvalue bound, every sorting routine", "why_tests_cant": "The estimate passes through DDC, a sort of residuals, deletion of rows by position, two eigendecompositions and a wrapping; a test permutes one data set.", "anchors": ["robpy/covariance/initial_ddcw.py:InitialDDCW.calculate_covariance", "robpy/covariance/cellmcd.py:CellMCD.calculate_covariance"]}
{"id": "C205", "title": "ROBPCA follows rotations and shifts of the data", "statement": "If every observation is rotated by the same orthogonal matrix and shifted by the same vector, `ROBPCA` returns the rotated and shifted centre, the rotated components up to their signs, and the same explained variances and number of components, or raises the same error: whatever signs (or orthogonal change of the scores) the first PCA chooses, if the eigenvalues of the covariance matrices it decomposes are different and the final MCD follows sign changes of its coordinates.", "quantifier": "every data matrix, orthogonal matrix and shift, every alpha, threshold and number of components, with and without the final MCD, every random choice of directions", "why_tests_cant": "The fit is a first PCA, an outlyingness over random directions, three eigendecompositions with free signs, a cutoff and a rank; a test rotates one data set with one decomposition routine.", "anchors": ["robpy/pca/robpca.py:ROBPCA.fit", "robpy/pca/base.py:get_od_cutoff", "robpy/utils/outlyingness.py:stahel_donoho"]}
{"id": "C206", "title": "ROBPCA and its outlier map give corresponding results in other units", "statement": "If the data are expressed in other units (every entry times the same positive number), rotated and shifted, `ROBPCA` returns the correspondingly moved centre, the rotated components up to their signs, the explained variances in the new units and the same number of components, or raises the same error, if the eigenvalues of the covariance matrices it decomposes are different. The outlier map drawn after the fit has the same score distances and lines, orthogonal distances in the new units, and the same observations beyond the lines.", "quantifier": "every data matrix, positive factor, orthogonal matrix and shift, every alpha, threshold and number of components, with and without the final MCD, every random choice of directions", "why_tests_cant": "It is a relation between two fits through eigendecompositions with free signs, a sort of eigenvalues, a cutoff with fractional powers and a rank; a test compares one data set in two units up to rounding.", "anchors": ["robpy/pca/robpca.py:ROBPCA.fit", "robpy/pca/base.py:get_od_cutoff", "robpy/pca/base.py:RobustPCA.plot_outlier_map"]}
{"id": "C207", "title": "CellMCD follows a reordering of the columns", "statement": "With the columns of the data and of the initial estimate in another order, the C-steps of `CellMCD` flag the same cells, listed in that order.", "quantifier": "every data matrix with or without missing cells, every initial location and positive definite covariance, every reordering of the columns, every alpha, number of C-steps, smallest eigenvalue and convergence criterion", "why_tests_cant": "Columns are updated one after the other and each update uses the flags of the previous ones; on almost all cells both orders agree, and a test with one data set cannot show for which data they do.", "anchors": ["robpy/covariance/cellmcd.py:CellMCD._C_steps_until_convergence", "robpy/covariance/cellmcd.py:CellMCD._update_W"]}
{"id": "C208", "title": "truncated_covariance returns the nearest matrix with eigenvalues at least the bound", "statement": "For a symmetric matrix, the result of `truncated_covariance` is the only matrix nearest to it in the Frobenius norm among those with all eigenvalues at least `min_eigenvalue`. The result does not depend on which eigenvectors numpy returns, and the result for a rotated matrix is the rotated result.", "quantifier": "every dimension, matrix, bound (of any sign), orthogonal matrix, choice of eigenvectors and order of the eigenvalues", "why_tests_cant": "The competitors form a continuum and eigenvectors are free in sign and within eigenspaces; a test compares with finitely many matrices and with one LAPACK.", "anchors": ["robpy/covariance/utils/alter_covariance.py:truncated_covariance"]}
