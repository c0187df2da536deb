# Formal model of robpy: design

`/verif/lean` is a Lean 4 (4.33.0) + Mathlib project. It contains a model of robpy
(STAN-UAntwerp/robpy, `/repo`), written function by function from the Python source,
and theorems about that model. The properties are listed in `properties.jsonl`
(C01, C02, ...), the theorem names per property in `MANIFEST.json`, and the record of
testing the theorems against wrong programs in `seeded/LOG.jsonl`.

## Layout

* `Verif/Model/*.lean`  the model: every definition cites file and lines in `/repo`.
* `Verif/Spec/*.lean`   small specifications which do not mention the model.
* `Verif/Lemmas/*.lean` helper lemmas.
* `Verif/Props/*.lean`  the property theorems (names start with the property id) with a
  non-vacuity `example` beside each of them.

## Trusted base

* Lean's kernel, and the axioms `propext`, `Classical.choice`, `Quot.sound` (checked with
  `#print axioms`; no other axiom, no `sorry`, no `native_decide`, no `bv_decide`).
* The reading of the Python source: the code is not executed, the model is a
  transcription by hand.
* **Floating point is modelled by exact arithmetic** in an ordered field (ℝ, or a
  generic linearly ordered field so that the definition can be evaluated over ℚ).
  Rounding, overflow and underflow are not modelled. NaN and infinities are modelled
  explicitly where the control flow depends on them (`Option`, or an error value).
* External numerical routines are parameters with a stated contract:
  - `numpy.linalg.eigh`/`inv`/`det`: exact spectral decomposition, inverse, determinant;
  - `LinearRegression.fit`: the minimiser of the sum of squares with the smallest coefficient norm (C57; elsewhere any
    minimiser), an error on an empty sample; the existence of such a function is proved (`linRegExists`);
  - `statsmodels` `WLS.fit`: the shortest minimiser of the weighted sum of squares (`wlsExists` shows that there is such a
    function); `LinAlgError` on NaN weights; `add_constant` with its default `has_constant="skip"`;
  - `argsort`: any sorting permutation; C57 assumes that it depends on comparisons only;
  - `scipy.stats.chi2/gamma/norm` quantities: arbitrary (positive) reals;
  - sklearn's `PCA` inside `ROBPCA`: loadings with orthonormal columns (C60 and C93 also assume that they make the
    covariance diagonal); `FastMCD` inside `ROBPCA`: an arbitrary function; `eigh` raises on NaN;
  - `DDC`: the code is modelled over any type of numbers with any operations (`DDCEnv`); C65, C66, C68, C109, C111, C112
    and the symmetry in C115 assume nothing about them (C66: NaN is NaN), so they hold for IEEE numbers. C110 uses the laws
    of NaN in `NanLaws`. `realEnv` is exact arithmetic with NaN as `none`: no infinities, division by zero gives NaN;
    `np.corrcoef`, `lstsq`, `np.median`, `np.nanmean` and `CellwiseOneStepM` are spelled out; rounding to three decimals,
    `chi2.cdf` and the user's scale estimator are arbitrary functions;
  - `CellMCD`: the univariate estimator and `InitialDDCW` are arbitrary functions (`CellExt`); C119 and C120 assume that the
    latter returns a positive definite matrix and its inverse (`DDCWContract`), which is proved for the model of
    `InitialDDCW` (`ddcw_contract`); `eigh`, `inv` and the order of the eigenvalues
    as above; the chi-square quantiles are arbitrary numbers. `eigh` of a matrix with NaN raises `LinAlgError`;
  - `InitialDDCW`: exact arithmetic with NaN as `none`; `DDC` is the model above with an arbitrary scale estimator in the
    place of `OneStepWrapping`; `np.argsort` is any ordering with NaN at the end (`NanArgSort`); `eigh` raises
    `LinAlgError` on a matrix with NaN (numpy's behaviour; a LAPACK that returns NaN eigenvalues is not covered);
  - `DetMCD`: `eigh`, `sqrtm`, `norm.ppf`, `argsort` and the consistency constant of `Tau` are arbitrary functions (`DetEnv`);
    C132 assumes that `sqrtm` returns a square root, that `norm.ppf` is strictly increasing and that the constant is
    positive (`DetContract`). Where a scale is 0 or a row has norm 0, numpy goes on with NaN until `eigh` or `Qn` raises;
    the model raises at once;
  - `medcouple`: an arbitrary number with invariance as hypothesis;
  - random generators: an arbitrary stream of draws (every seed, every schedule);
  - `scipy.optimize.minimize_scalar`: an arbitrary function of objective and range (`PTNum`); for Yeo-Johnson with a median
    absolute deviation 0 the code goes on with NaN and infinities, and no theorem speaks about that case.
* Python integers are `Nat`/`Int`; `int(alpha*n)` is the floor of the exact product.
* Logging output, CSV loading and type conversion of pandas objects are not modelled. Of the plots the model has the
  numbers shown and the rows named (`cell_MCD_plot`, `outlier_map`, `cellmap` with its colours), not their appearance; the ellipse of the bivariate plot is
  the curve for all angles, of which the code joins 201 points. An infinite residual is `none`, like NaN.

## Properties and plan

The table is the plan. What is actually proved is what `MANIFEST.json` lists.

| id | what is modelled | how it is proved |
|----|------------------|------------------|
| C01 | `Qn._calculate` incl. the bound-moving loop, `searchsorted`, `partition`, `_get_small_sample_dn` | loop invariant (counts of matrix entries below/above the bounds), decreasing measure nR-nL, then rank characterisation |
| C02 | `weighted_median` | loop invariant 2*wrest <= wtotal < 2*(wrest + W(cand)), list length decreases |
| C03 | `UnivariateMCD._get_raw_estimates` | one-dimensional C-step argument: the h points nearest to a mean form a window |
| C04 | `_set_h_size` | case analysis, floor arithmetic |
| C05 | as C01 | through the order-statistic specification |
| C06 | as C03 + `_reweighting` | sort commutes with increasing affine maps; induction over the window loop |
| C07 | `Tau._calculate` | convexity; at least half of the points have weight > 0 |
| C08, C09 | `OneStepM._calculate`, `psi` functions | convexity; weights in [0,1] |
| C10-C12 | `Qn`, `UnivariateMCD`, `np.median`, MAD | counting arguments on the specification |
| C13, C14 | `TukeyBisquare`, `Huber` | calculus in Mathlib (`HasDerivAt`), polynomial inequalities |
| C15 | `RobustScale.fit` as a state machine | induction over call histories |
| C16 | `UnivariateMCD._calculate` with division by zero made explicit | violated: witness; partial theorem characterises the good inputs |
| C17, C18 | `adjusted_boxplot`, `np.percentile` | sortedness, monotonicity of interpolation |
| C19 | `RobustScaler` | algebra per cell |
| C20-C22 | Box-Cox / Yeo-Johnson transforms, inverses, rectified versions | real powers in Mathlib |
| C23 | `_calculate_bounds`, `_handle_bounds` | violated (order, boundary): witness; partial theorem on the open range |
| C24, C25 | `fit`, `_get_method`, `_fit_*` control flow as state machine | violated: witness; partial theorem |
| C26, C27 | `wrapping_transformation` | real analysis (tanh), algebra of means |
| C28-C30 | `DataCleaner` as a state machine over labelled frames | list reasoning; C29, C30 violated: witness + partial |
| C31 | `mahalanobis_distance` | matrix algebra |
| C32 | `inverse_submatrix`, three branches | Schur complement; permuted full index list: witness |
| C33, C34 | `truncated_covariance`, `covariance_to_correlation` | spectral theorem contract, PSD congruence |
| C35 | `_perform_c_step` | trace/determinant inequality (AM-GM on eigenvalues) |
| C36 | the convergence loop | violated: the stopping test has the wrong sign; theorem: the loop never changes its input; witness where the C-step does improve |
| C37 | `_get_h`, `_partition_data` | violated for integer alpha with partitions; partial for the rest |
| C38 | sorting and `min` over candidates | order reasoning |
| C39 | `calculate_covariance` with fixed draws | C31 + C35, induction over steps |
| C40 | `_get_subset` | decreasing number of unused rows |
| C41 | `KendallTau.calculate_covariance` with tau-b spelled out | Gram matrix of sign vectors |
| C42 | `OGK.calculate_covariance` | congruence, induction over iterations |
| C43 | `RobustCovariance.fit` as state machine | violated: witness; partial |
| C44 | `_update_W`, `_check_data`, whole iteration | invariant; cutoffs above 3: witness; partial |
| C45, C117, C118 | `_C_steps_until_convergence` | descent of the objective (Gaussian conditioning, Gibbs inequality, eigenvalue bound), induction; violated: witness; partial |
| C46 | `_predict_*`, `_make_predictions` | Schur complement; rows without a clean cell violated: witness; partial |
| C47, C125 | `InitialDDCW`: cap of the replaced cells, which cells are replaced | counting in a sorted list; violated: witness; partial |
| C126-C128 | `InitialDDCW`: result; one variable; data on a line | eigenvalue bound, rank of a covariance of collinear rows |
| C129, C130 | `InitialDDCW`: casewise deletion | NaN propagation, scaling of medians; violated: witness; partial |
| C135, C136 | `InitialDDCW`: variances and principal directions | order of matrices under truncation of eigenvalues; orthonormal eigenvectors; variance of a rescaled wrapped column |
| C142-C148 | `RobustPowerTransformer.fit` with the estimation of lambda (`Model/PowerFit.lean`); the optimiser is a parameter | variance of standardised lists, a Chebyshev count, equivariance of median and MAD, derivative of the transformations; C143, C144 violated: witness; partial |
| C149-C152 | residuals of `CellMCD` and `cell_MCD_plot` (`Model/CellPlot.lean`) | equivariance of wrapping; square root of a positive definite 2x2 matrix, parametrisation of the circle |
| C153 | `sklearn.base.clone` on all estimators (`Model/Objects.lean`) | induction over nested parameter values; violated: witness; partial |
| C154, C155 | several `MMRegression` objects with a shared initial estimator | frame lemma for one call, induction over calls; violated: witness; partial |
| C137-C141 | `RobustRegression.outlier_map` with `FastMCD` | C39; medians of majorities; C137, C138, C141 violated: always raising or witness; partial |
| C131-C134 | `DetMCD` with its six starting sets | equivariance of the standardisation; counting equal projections of data in general position; rank of few rows; C132 violated: witness; partial |
| C156 | the six preliminary estimates and starting sets of `DetMCD` | refinement to a specification by order statistics, Pearson correlations, orthonormal eigenvectors |
| C157 | `MMRegression.fit` on arrays with shapes (broadcasting, `reshape`) | refinement of the list model for flat predictions; violated for `FastLTSRegression`: every data set |
| C158 | `plot_outlier_map` with its cutoffs (`PCAMap`) | equivariance under similarity transformations, permutations |
| C159 | `ROBPCA.fit` as a whole | window argument for the univariate MCD, second-moment argument for the cutoff; violated for `n_components` = number of directions and for exact fits |
| C160 | `PCALocantore.fit`, `l1median` | simulation between units; violated: fixed tolerance 1e-7 |
| C161 | `FastLTSRegression.fit`, `SRegression.fit` with the state of numpy's global generator (`GlobalRng`) | simulation relation to the models without state, induction over the loop and over the rounds of a study; violated: `np.random.seed` |
| C162 | `Qn`, `UnivariateMCD`, `Tau`, MAD | counting close pairs among contaminated samples |
| C163 | `Qn`, `Tau`, `OneStepM`, MAD | counting tied pairs; violated for `Qn` (discrete data) and `OneStepM` (absolute `min_abs_scale`) |
| C164 | `RobustCovariance.fit` with `KendallTau`, `OGK`, `WrappingCovariance` | permutation invariance of each step, simulation through the OGK iterations |
| C165 | `DDC.fit` | permutation invariance of each step, any arithmetic |
| C166 | loggers and `verbosity` of the estimators | trace of actions on the registry |
| C167 | `RobustCovariance.fit` with `KendallTau`, `OGK`, `WrappingCovariance` | uniqueness of eigenvectors up to order and sign, induction over the passes with signed permutations |
| C168 | `OGK.fit` on contaminated rows | bounds of location and of the quadratic form of the covariance chosen before the outliers; directional bounds of median and MAD (compactness of the unit sphere) carried through `ogkStep`, then the reweighting and the classical covariance |
| C169 | `l1median`, `PCALocantore.fit` | the condition under which the loop stops, read as a bound of the gradient of the sum of distances; witness: an observation next to the mean |
| C170 | `KendallTau`, `WrappingCovariance` | the matrix of sign products as a Gram sum over pairs of rows, which outliers can only increase; bounds of Qn and MAD (C10, C12, C162); variances bound a covariance matrix |
| C171 | `FastLTSRegression.fit` | the reported objective is at most that of the clean draw (C51), a small objective leaves more than p good observations with small residuals, general position bounds the model; violated with reweighting: two outliers, the sum of the residuals of a least-squares fit is zero |
| C172 | `FastMCD.fit` | more than p good rows in every subset of h rows bound the smallest eigenvalue from below; the first C-step from a clean draw gives a bounded determinant, which C35 and C38 carry to the end; determinant and smallest eigenvalue bound the largest one; correction and reweighting keep at least half of the rows |
| C173 | `FastMCD.fit` | every subset of h rows has more than p good rows, so no covariance is singular (one part); refuted for five parts |
| C174 | `DetMCD.fit` | along every direction Qn of the contaminated data lies between bounds (few pairs of good rows are close), so whatever the preliminary matrix the starting scatter and location are bounded; then as C172 from the starting sets; a symmetric matrix square root is assumed |
| C175 | `SRegression.fit` | at least half of the residuals are at least the median, so an update of the scale cannot shrink it by more than a fixed factor; a small reported scale bounds the median residual of the previous coefficients, hence these, hence the reported ones by the convergence test; counterexample by running the model on 64 observations |
| C176 | `Tau`, `OneStepM`, `UnivariateMCD`, `OneStepWrapping` | weights that vanish beyond a multiple of the scale keep a weighted mean near the centre; for weights that do not vanish, half of the observations have weight at least a constant and each contributes a bounded amount |
| C177 | `FastLTSRegression.fit` | a fit to a clean draw is the hyperplane itself, with objective 0; the reported loss is at most this; hyperplanes sharing more than p points in general position are equal; violated with reweighting by the two outliers of C171 |
| C178 | `adjusted_boxplot` under contamination | both neighbours of the quartile positions lie in the bulk by counting; exponents at most 3 for a medcouple in [-1, 1]; sharpness: the upper neighbour of the third quartile is an outlier |
| C179, C180 | `RobustScaler` with the estimators of the package | affine equivariance of each estimator (C05, C06, C07, C09, C71) lifted through NaN removal and the column loop; C180 refuted for `OneStepM` by a MAD below `min_abs_scale` |
| C181 | `stahel_donoho` | median and MAD of all projections bounded away from 0 and infinity uniformly in the direction (slab argument of C168); the direction through an outlier and a regular row makes their projections differ by their distance |
| C182, C183, C184 | `DDC.cellmap`, `get_custom_cmap` | selection by positions commutes with reading a cell; piecewise linear colour map computed zone by zone; anchors increasing iff `vmax_clip >= 2.5` |
| C185 | `DDC.fit`, `predict`, `impute` on a frame with its columns reordered (`Spec.reorderCols`) | every attribute follows the columns (`Spec.colsFollow`, `cellsFollow`, `matrixFollows`), flagged rows equal; needs only the symmetries in `EnvColumnFree`, proved for exact arithmetic |
| C186 | `ddcFit` with the far cells pushed out | `Spec.pushed` (the other cells kept, the far ones beyond ±B on their side), `Spec.farFit`, `Spec.farFlagged`: every step of the fit is the same for all far cells beyond a bound |
| C187 | `ddcFit` with far cells, `frameMask` | `Spec.pushed`, `Spec.farFlagged`, without the condition on the predictions |
| C188 | `DetMCD` on the rows in another order | same location, covariance, rows of the best subset, mask entry per row; violated when ties decide, holds when every cut is clear |
| C189 | `DetMCD` on the rows `b - x` | reflected location, same covariance, subset and mask |
| C190 | `SRegression.fit` on `X @ A` and `y + X @ g` | coefficients `inv(A) (b + g)`, same scale; violated with the defaults, holds in general position with `relative_tolerance = 0`, for a consistent `b` and for the default `b` if exact fits are rare |
| C191 | `SRegression.fit` on `-y` | coefficients change sign, same scale, same exception or no end |
| C192 | `SRegression.fit` on reordered rows | every step depends on the residuals and rows as a multiset; weighted least squares has a unique shortest solution |
| C193 | `SRegression.fit` on `a * y` | coefficients and scale times `a`; violated: `scale_tolerance` is absolute; holds with the tolerance in the same units for runs without exact fits and tiny coefficients |
| C194 | `FastLTSRegression.fit` on reordered rows | same model, scale and observations for corresponding draws; violated by ties of absolute residuals, which the sort breaks by position; holds without ties at the `h`-th residual |
| C195 | `FastMCD` for every `n_initial_c_steps` | returns estimates on rows in general position; violated by 0, which always raises; holds from 1 on |
| C196 | `FastMCD` on reordered rows | same estimates for the same drawn observations; violated for tied distances; holds without ties (one part) |
| C197 | `MMRegression.fit` on reordered rows, alone and after `SRegression.fit` | weighted rows are a permutation, least squares of minimal norm is unique; induction over the iterations; C192 |
| C198 | `MMRegression.fit` on rotated and shifted features | least squares of minimal norm follows orthogonal maps; violated for shifts: witness with two observations |
| C199 | `PCALocantore.fit`, `stahel_donoho`, `ROBPCA.fit` on reordered rows | each step is a function of the multiset of rows; the h-subset by a threshold of the outlyingness |
| C200 | `l1median` on rotated rows | each pass commutes with orthogonal maps; exact for signed permutations of the columns; violated through the stopping rule: witness with three observations |
| C201 | `PCALocantore.fit` on rotated rows and changed columns | sign covariance moves to Q S Qᵀ; eigenvectors of different eigenvalues are unique up to sign; MAD of scores is even |
| C202 | `DataCleaner.fit`, `transform` on a reordered table | every decision is a count over rows or columns with labels; violated for columns that count the rows |
| C203 | `CellMCD.calculate_covariance` on reordered rows | sums over rows, patterns as a set, and the h smallest cells of a column are order free unless cells tie; the start and the scaler are parameters |
| C204 | `InitialDDCW.calculate_covariance`, `CellMCD` with it, on reordered rows | DDC by C165, the replaced quarter of a capped column is a set fixed by its residuals unless they tie, covariances and medians are order free |
| C205 | `ROBPCA.fit` on rotated and shifted data | the scores are turned by an orthogonal matrix, outlyingness and orthogonal distances stay, eigenvectors are turned up to sign, also through the final MCD |
| C206 | `ROBPCA.fit` and the outlier map on data `a P x + b` | as C205 with eigenvalues times `a²` (argsort of strictly increasing values), cutoff times `a`, rank unchanged; the map does not depend on the signs |
| C207 | `CellMCD._update_W` on reordered columns | false for columns with equally many clean cells (witness with correlation 0.6 and a row (2, -2)); otherwise the stable sort by counts follows the columns and the conditional mean and variance are re-indexed by a bijection of the patterns; likewise imputation, objective and the truncated covariance, which as a function of a symmetric matrix does not depend on the eigenvectors chosen |
| C208 | `truncated_covariance` | in the basis of eigenvectors the distance is a sum over entries and the diagonal of a competitor is at least the bound; two decompositions of one matrix give the same function of it |
| C48 | `objective_function` | sum over fibres |
| C119-C122 | `CellMCD.calculate_covariance` | composition of the parts; C121, C122 violated: witness; partial |
| C49-C52 | `FastLTSRegression` | exchange argument; finiteness of subsets |
| C53 | reweighting step | violated: witness; partial |
| C54 | `get_correction_factor` | algebra |
| C55 | `MMRegression` step | violated: witness; partial (what is minimised) |
| C56 | `SRegression._get_scale` | violated: the equation has no solution, scale shrinks geometrically; partial: fixed points are solutions |
| C57 | `FastLTSRegression` with fixed draws | induction over steps |
| C98-C101 | `FastLTSRegression.fit`: result and state | induction over the loops; C101 violated: witness; partial |
| C102-C105 | `SRegression.fit`, `predict` | induction over the loops; C102, C103, C105 violated: witness; partial |
| C106-C108 | `MMRegression.fit` | induction over the iterations; violated: witness; partial |
| C58 | `RobustPCA.transform/project` | matrix algebra |
| C59 | choice of k | `argmax` on a list; k_min_var_explained > 1: witness |
| C60 | `ROBPCA.fit` centre | violated: the centre is the mean; witness |
| C61 | `stahel_donoho` with seeded generator | violated: all directions are equal |
| C62 | `stahel_donoho` with given directions | invariance of median and MAD |
| C63, C64 | `l1median` | non-termination witness; convexity; majorise-minimise argument |
| C65, C66, C109 | `DDC` over an arbitrary arithmetic | equality of code paths, state passing |
| C67, C116 | `DDC` predictions in exact arithmetic | sums over filtered index sets; C67 violated: witness; partial |
| C68, C111, C112 | `DDC` call histories, `fit` that raises, `verbose` | induction over histories; violated: witness; partial |
| C110, C114 | `DDC.fit` with missing cells; data check | NaN propagation; counting; violated: witness; partial |
| C123, C124 | `DDC` slopes, deshrinkage; width of new data | least squares; case analysis |
| C113, C115 | `DDC` under changes of units; correlation matrix | algebra per cell; Cauchy-Schwarz |
| C69 | `get_logger` | state machine |
| C70 | `Tau` with zero MAD | violated: witness; partial: exactly which samples give NaN |
| C71 | `OneStepWrapping` location | convexity, equivariance of median and MAD |
| C72, C73 | `RobustScaler` state after a failing fit; power transform of integer arrays | violated: witness; partial |
| C74, C75 | `DataCleaner` kept columns; power transformer fit then transform | list reasoning; case analysis |
| C76 | convergence loop of FastMCD/DetMCD | first pass always ends |
| C77-C80 | `alpha` equal to 1 or n, `_partition_data`, `_correct_covariance`, `_reweight`, number of initial subsets | algebra, list reasoning; C80 violated: witness; partial |
| C81, C88, C89 | `RobustCovariance.fit` | case analysis of the error paths; C81, C89 violated: witness; partial |
| C82, C83 | `location_` after `fit` | violated: witness; C83 partial for WrappingCovariance |
| C84, C87 | `OGK` with and without reweighting | induction over the iterations; list reasoning |
| C85, C86 | `KendallTau`, `WrappingCovariance` | sign algebra, Gram matrix |
| C90 | `l1median` under shifts, rescaling, reordering | induction over the loop |
| C91 | `stahel_donoho`, NaN and inf explicit | violated: witness; partial: exactly when the value is a number |
| C92-C97 | `ROBPCA.fit`, `PCALocantore.fit`: result and state | matrix algebra, spectral theorem, induction; C93-C95 violated: witness; partial |

## Disagreements between code and property

* C09: if the MADs are below `min_abs_scale`, residuals are not scaled, so the one-step M location is not
  equivariant under rescaling.
* C32: `inverse_submatrix` ignores the order of the index list when it contains all indices.
* C36: the stopping test of the convergence loop has the wrong sign; the loop stops in its first pass.
* C37: an integer `alpha` raises `ValueError` as soon as the data is partitioned.
* C80: with fewer initial subsets than partitions no subset is drawn and `IndexError` is raised.
* C43: `location_` is overwritten before the computation that fails.
* C81: no covariance estimator can be fitted on a single column.
* C82: the location reported by KendallTau and WrappingCovariance is the plain mean.
* C83: `assume_centered=True` has no effect on the location reported by FastMCD.
* C89: the distances called non-robust are measured from the robust location.
* C53: FastLTS with reweighting raises on data that lie exactly on a hyperplane.
* C54, C101: for few rows per column the correction factor has a pole and is negative; so is the scale.
* C57: the tolerance of the FastLTS loop is absolute; rank-deficient starts have more than one least-squares fit.
* C55, C107: `MMRegression` multiplies rows and targets by the roots of the weights but `LinearRegression` adds a constant
  column that is not multiplied; intercepts are pulled towards 0, and a constant added to the targets is not followed.
* C56: the default tuning constant of `SRegression` makes the bisquare smaller than `b` everywhere, so the scale equation has
  no solution and each update shrinks the scale.
* C102: `add_constant` adds no constant to a batch with a constant column, such as a single row; `predict` then raises.
* C103: a model that fits a majority exactly has scale 0; then all weights are 0 and the next coefficients are 0. From there
  the search may return to the exact fit for ever. C103 and C106 are statements about residuals that are exactly 0; with
  rounding errors such residuals are rare on noisy data, but common if targets are integers or repeated.
* C105: the handler of `LinAlgError` in `SRegression.fit` reads a variable that is unbound in the first pass.
* C106: `psi(0) / 0` is NaN, so `MMRegression` raises if a residual is exactly 0.
* C58: `project` does not add the centre back.
* C59: if no number of components reaches the requested proportion, one component is kept.
* C60: the centre of ROBPCA is the mean of all observations.
* C93: ROBPCA reduces the number of components to a rank after it has stored the explained variances.
* C94: `fit` overwrites `n_components=None`, so a second fit does not choose the number again.
* C95: PCALocantore sorts by the eigenvalues of the sign covariance, and reports MADs of the scores.
* C61: with a seed, `stahel_donoho` draws the same direction `n_dir` times.
* C63: `l1median` does not terminate if an iterate coincides with an observation.
* C91: a projection with MAD 0 turns outlyingness values into NaN or inf.
* C67: `DDC` normalises its weights over all variables with absolute correlation at least 0.5, whatever `min_correlation`.
* C68: `DDC.predict` before `fit` raises AttributeError, since `is_fitted_` does not exist.
* C110: a row of missing cells, or a pair of columns with one common usable row, makes `DDC.fit` raise.
* C111: `DDC.fit` replaces `location_` and `scale_` before the steps that may fail; the object then mixes two fits.
* C112: `DDC.fit(verbose=True)` divides by `columns // 10`.
* C114: `DDC.fit` rejects three distinct values although its message says less than three.
* C44: cells beyond 3 deviations are cleared, but the check counts cells beyond `sqrt(chi2.ppf(quantile, 1))`; for larger
  quantiles columns with fewer than `h` cells left pass, and missing cells are marked as clean.
* C45: the early return of the C-steps combines the old location and covariance with the new flags.
* C46: for a row without a clean cell `_make_predictions` uses the diagonal of the inverse covariance as variances.
* C118: `max_c_steps = 0` or `crit >= 1` makes CellMCD raise UnboundLocalError.
* C121: CellMCD rejects columns whose median absolute deviation is below 1e-8, in whatever units.
* C122: `CellMCD.fit` overwrites `alpha`.
* C47: if `InitialDDCW` caps a column it replaces a quarter of the cells, whatever `alpha`.
* C125: the reversed `argsort` of the residuals starts with the missing cells, so they use up the quarter.
* C129: one missing cell anywhere makes the median distance NaN, and no row is left out of the second covariance.
* C143: from the second step on `_reweighted_max_likelihood_robust` standardises with the plain mean and standard deviation; at
  most 15% of the observations can lose their weight, none of 6 or fewer.
* C144: `nsteps=0` makes `RobustPowerTransformer.fit` raise UnboundLocalError.
* C153: `RobustPowerTransformer.__init__` stores `list(lambda_range)`, and `clone` insists on the very object it passed: RuntimeError.
  `DDC` inherits only `OutlierMixin` and has no `get_params`: TypeError. (`clone` is library code and part of the trusted base.)
* C154: the default `initial_estimator=SRegression()` is made once and shared by all `MMRegression` objects; with `max_iterations=0`
  it is the model of all of them.
* C155: `MMRegression.fit` assigns `self.model` before its iterations; after a fit that raises, `predict` answers with the initial fit.
* C157: `FastLTSRegression.predict` returns a column (lts.py 156), so `MMRegression` with this initial estimator raises ValueError on every data set.
* C159: `ROBPCA.fit` keeps the observations with `orth_dist < cutoff` (robpca.py 100). With as many components as directions all distances are 0 and so is the cutoff (or it is NaN): no observation is kept and `eigh` raises LinAlgError. In floating point the distances are rounding errors of the order 1e-16, so the subset that determines the components is random. The same failure, without help from rounding, if more than half of the observations are fitted exactly.
* C160: `l1median` stops at a step below `1e-7` (median.py), whatever the units of the data; `PCALocantore` inherits this.
* C161: `FastLTSRegression` (lts.py 172, 217) and `SRegression` (s.py 170) call `np.random.seed` on the global generator. The results are reproducible, but the random numbers of the calling program are reset by every fit: a simulation study that draws its data with `np.random` and fits sees the same data set in every round but the first.
* C163: `Qn` is zero as soon as the tied pairs reach `C(h, 2)`, e.g. for 18 observations with three values, each six times (a property of the published estimator too). `OneStepM` reports 0 whenever the normalised MAD is below the absolute number `1e-12`, whatever the units.
* C166: the logger of a class is shared by all its objects: constructing a second `FastMCD` (also inside `ROBPCA.fit` or `outlier_map`) changes the level for the first; `CellMCD(verbosity=..)` does not reach the `InitialDDCW` it constructs; `FastLTSRegression.fit(verbosity=INFO)` shows nothing below WARNING unless logging is configured.
* C169: `l1median` starts at the mean and stops when a step is short; next to an observation every step is short. Two outliers, one far away and one placed next to the resulting mean, give a result beyond every bound, whatever the number of good rows.
* C171: the reweighting step of `FastLTSRegression.fit` (lts.py 139-142) divides the residuals by `np.std` of all residuals, outliers
  included. One far outlier makes this number so large that a second one, itself as far away as one likes, gets weight 1: two
  outliers among any number of observations carry the reported coefficients beyond any bound.
* C173: `FastMCD._partition_data` (mcd.py 223-229) cuts the data into parts in the order of the rows (`np.array_split`).  When the
  rows of one part are equal (e.g. a block of 121 equal outliers among 605 rows) `_get_subset` finds no subset with a nonsingular
  covariance and `rng.choice` of an empty array raises ValueError, although four fifths of the rows are in general position.
* C175: the largest value of the default `rho` of `SRegression` is `1.547**2 / 6 = 0.399`, below the default `b = 0.5` (C56), so every
  scale update shrinks the scale.  When slightly more than half of the observations are good, two updates (`max_scale_iterations`)
  leave all good observations with weight 0 if the other ones fit better.  Then the outliers alone determine the coefficients,
  even if every random draw was clean.
* C177: with six observations exactly on a line and two outliers, `FastLTSRegression` with the default `reweighting=True` does not report
  the line, because the cutoff uses the classical standard deviation of all residuals. Without reweighting it does.
* C180: `OneStepM` compares the MAD with the absolute number `min_abs_scale`; `RobustScaler(HuberOneStepM())` therefore divides by 0 when the data are
  expressed in a unit in which the MAD is below 1e-12, though the same data in another unit are scaled properly.
* C183: the neutral colour of the cell map is used for residuals up to 2.5, not up to the cutoff of the model.
* C184: `cellmap` fails for `vmax_clip` below 2.5 (anchors of the colour map out of order) and for a zoom to no rows
  (`1 / len(plot_data)`).
* C187: the deshrinkage factor of `DDC` is a slope through the cells with a prediction other than 0 only. When the predictor is missing in other rows,
  far cells that are a minority of their column can be the majority there; the factor then fits them, they get residual 0, and clean cells are flagged.
* C188: `DetMCD` takes the first rows of `np.argsort` of the distances. When rows have equal distances at the cut, which of them are taken depends on their place in the data. For six points that are symmetric about the origin, with `alpha=5`, no result can be independent of the order: the reflected data are the same rows in another order, and the location would have to be 0, which the mean of five of these rows is not.
* C190: `SRegression` is not regression equivariant with its defaults. If most targets lie on a plane through the columns, an i-step from that plane has scale 0, all weights are 0 and the next coefficients are 0. So the search never ends on the targets 1, 1, 1, 11 with a constant column, and ends on 0, 0, 0, 10. The stopping rule compares the change of the coefficients with their own size, which a shift changes as well; `b = 0.5` is larger than the largest value `c**2 / 6` of the score function (C56), so one proof for samples in general position asks for `b <= c**2 / 12`. The other one covers the default `b` and the default two scale iterations: bounds for the two scales show that at least a tenth of the rows has a residual below `c` times the scale, so the weights determine the fit if exact fits are rare.
* C193: `SRegression` is not scale equivariant. `scale_tolerance` is an absolute number, so small targets get a scale after one iteration instead of two: 0 and 2 have the scale 0.76, 0 and 2e-10 the scale 0.91e-10. The replacement of residuals that are exactly 0 by the machine epsilon and the stopping rule (`relative_tolerance` squared) are absolute too.
* C194: `FastLTSRegression` depends on the order of the rows beyond its draws. Absolute residuals that are equal are ordered by position: three equal rows with the targets 1, -1 and 0 get two opposite nonzero intercepts depending on whether 1 or -1 is first.
* C195: `FastMCD(n_initial_c_steps=0)` raises ValueError on all samples in general position with `h > p + 1`: the indices of the draw and of the first C-step have different lengths and are compared with `==`.
* C196: rows at the same distance are taken by their position, so `FastMCD` can change with the order of the rows (six points symmetric under a half turn, `h = 5`).
* C198: shifting a feature changes the predictions of `MMRegression`, since the weights multiply the features and targets but not the constant column.
* C200: `l1median` stops when the sum of absolute coordinate changes is small; the sum depends on the axes, so rotated data can take another number of passes and the result is not the rotated one.
* C202: `DataCleaner` drops a column of row numbers only if the rows are in that order; the same table sorted differently keeps the column.
* C207: `CellMCD._update_W` updates the columns one after the other in the order of their numbers of clean cells, ties in the order of the columns. In data without missing cells all columns tie in the first C-step, so which of two jointly unusual cells of a row is flagged depends on the order of the columns.
* C137: `outlier_map` of a regression with one feature always raises (`np.cov` of one column is 0-dimensional).
* C138: `outlier_map` divides by the MAD of the residuals; if it is 0, exactly fitted observations get NaN.
* C141: `outlier_map` raises for `y` as Series, and for `X` as DataFrame with `robust_distance=False`.
* C130: `InitialDDCW` measures standardised rows with the covariance in the units of the data.
* C132: a row equal to the column medians has norm 0 after `DetMCD`'s standardisation; the spatial signs divide by it and `DetMCD` raises.

The other violated properties carry the status "partial" and a note in `MANIFEST.json`.

## How the theorems were tested against wrong programs

`seeded/LOG.jsonl` has one line per edit tried in a scratch copy. Points to know when reading it:

* `theorems_failed` are the declarations in which the build reported an error. An error in a proof shows that the
  proof broke, not by itself that the statement became false.
* Batches m1-m6 (first run) used a harness that stopped at the first failing module. An edit that breaks an early
  lemma therefore says nothing about the theorems after it. The later harness replaces failing proofs by `sorry`
  in the scratch copy and goes on; a false lemma made available in this way can let a later theorem pass.
* Where only lemmas failed, the note says so. For some of these the property statement was afterwards refuted for
  the edited model on a concrete input; for C35 and C36, stated over the reals, this was done over the rationals.
* `claim_broken` is the label written before the run, except where the note says it was relabelled. For 105 of
  the first 112 lines the field had been overwritten from the names of the failing theorems; the original labels were put
  back from the scripts and the overwritten values are in `claims_derived_from_failures`. Some original labels
  name the wrong property.
* The first harness did not log survivors, and 37 lines of two later runs had been removed before a rerun. All
  these attempts were restored from recorded output, so their order in the file is by batch.
* Batch m7: two edits of the OGK reweighting are listed with a broken proof of C84 but count as survivors, since C84
  stays true for them; C87 was added. Its `covFit` lines are not evidence (the harness cut a statement), m8 repeats them.
* Nine edits up to m6 survived when first tried; the lines name the theorems added because of them.
