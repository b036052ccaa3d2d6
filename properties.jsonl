{"id": "C01", "title": "Beta: (mu,sigma), (mu,nu) and (alpha,beta) are interchangeable", "statement": "Building a Beta from (mu, sigma) or (mu, nu) gives the Beta(alpha, beta) whose textbook mean and standard deviation (or mean and sample size) are exactly the requested ones, alpha and beta are positive, and the alternative parameters reported back by the object are the requested ones; starting from (alpha, beta), converting out and back returns (alpha, beta).", "quantifier": "every real mu in (0,1), every sigma with 0<sigma^2<mu(1-mu), every nu>0, every alpha,beta>0", "why_tests_cant": "a continuum of parameter values; tests sample a few points and compare with a tolerance", "anchors": ["preliz/distributions/beta.py:Beta._from_mu_sigma", "preliz/distributions/beta.py:Beta._from_mu_nu", "preliz/distributions/beta.py:Beta._to_mu_sigma", "preliz/distributions/beta.py:Beta._parametrization"]}
{"id": "C02", "title": "Gamma and InverseGamma: (mu,sigma) and (alpha,beta) are interchangeable", "statement": "Building a Gamma or InverseGamma from (mu, sigma) gives positive (alpha, beta) whose textbook mean and standard deviation are mu and sigma, and the conversion is a bijection with the conversion the object uses to report (mu, sigma) back.", "quantifier": "every mu,sigma>0; every alpha,beta>0 (alpha>2 for InverseGamma)", "why_tests_cant": "a continuum of parameter values", "anchors": ["preliz/distributions/gamma.py:Gamma._from_mu_sigma", "preliz/distributions/gamma.py:Gamma._to_mu_sigma", "preliz/distributions/inversegamma.py:InverseGamma._from_mu_sigma", "preliz/distributions/inversegamma.py:InverseGamma._to_mu_sigma"]}
{"id": "C03", "title": "NegativeBinomial, Wald, Rice, AsymmetricLaplace, Exponential, Bernoulli/logit alternative parameters round-trip", "statement": "For each of these families converting to the alternative parametrisation and back is the identity on the whole admissible domain, in both directions.", "quantifier": "every admissible real parameter value of each family", "why_tests_cant": "a continuum of parameter values and several families", "anchors": ["preliz/distributions/negativebinomial.py:NegativeBinomial._from_p_n", "preliz/distributions/negativebinomial.py:NegativeBinomial._to_p_n", "preliz/distributions/wald.py:Wald._from_mu_phi", "preliz/distributions/rice.py:Rice._from_b", "preliz/distributions/asymmetric_laplace.py:AsymmetricLaplace._from_q", "preliz/distributions/exponential.py:Exponential", "preliz/internal/special.py:logit", "preliz/internal/special.py:expit"]}
{"id": "C04", "title": "Precision parametrisation: the precision reported is the precision requested", "statement": "A distribution built with precision tau (or lam) has sigma = tau^(-1/2); the precision it reports back equals the requested one.", "quantifier": "every precision > 0 and every sigma > 0", "why_tests_cant": "the discrepancy is below test tolerances near tau=1 and unbounded (relative) for large tau; only a proof over all tau separates exact from approximate", "anchors": ["preliz/internal/distribution_helper.py:from_precision", "preliz/internal/distribution_helper.py:to_precision", "preliz/distributions/normal.py:Normal._parametrization"]}
{"id": "C05", "title": "Conflicting parametrisations are rejected", "statement": "Supplying parameters from two different parametrisations of the same family raises ValueError, and supplying parameters from only one parametrisation never raises.", "quantifier": "every family with alternative parametrisations and every subset of its constructor arguments given any values", "why_tests_cant": "2^n subsets of arguments times all values", "anchors": ["preliz/distributions/beta.py:Beta._parametrization", "preliz/distributions/gamma.py:Gamma._parametrization", "preliz/distributions/normal.py:Normal._parametrization", "preliz/distributions/studentt.py:StudentT._parametrization", "preliz/distributions/negativebinomial.py:NegativeBinomial._parametrization", "preliz/distributions/wald.py:Wald._parametrization", "preliz/distributions/rice.py:Rice._parametrization", "preliz/distributions/asymmetric_laplace.py:AsymmetricLaplace._parametrization"]}
{"id": "C06", "title": "A freshly built distribution is frozen exactly when it is completely specified", "statement": "After construction is_frozen is true iff the supplied arguments determine every parameter of the family.", "quantifier": "every family modelled and every subset of constructor arguments", "why_tests_cant": "2^n argument subsets per family; existing tests only use complete or empty argument lists", "anchors": ["preliz/distributions/distributions.py:Distribution.__init__", "preliz/distributions/beta.py:Beta._parametrization", "preliz/distributions/truncatednormal.py:TruncatedNormal._parametrization", "preliz/distributions/kumaraswamy.py:Kumaraswamy._parametrization", "preliz/distributions/hurdle.py:Hurdle._parametrization", "preliz/distributions/zi_negativebinomial.py:ZeroInflatedNegativeBinomial._parametrization"]}
{"id": "C07", "title": "params_dict rebuilds the same distribution", "statement": "For a frozen distribution d, re-parametrising with d.params_dict gives the same parameters, the same parameter names and the same frozen state, whichever parametrisation d was built with and after any sequence of earlier parametrisations.", "quantifier": "every frozen state reachable by any sequence of parametrisation calls", "why_tests_cant": "unbounded histories of mutating calls", "anchors": ["preliz/distributions/distributions.py:Distribution.params_dict", "preliz/distributions/beta.py:Beta._update", "preliz/distributions/gamma.py:Gamma._update", "preliz/distributions/normal.py:Normal._update"]}
{"id": "C08", "title": "Moment-based initialisation is exact for location-scale families", "statement": "After fitting moments (m, s) the textbook mean and standard deviation of Normal, Laplace, AsymmetricLaplace, Logistic, Gumbel, Moyal, Uniform are m and s.", "quantifier": "every real m and every s>0", "why_tests_cant": "a continuum; tests check a single pair with a tolerance", "anchors": ["preliz/distributions/normal.py:Normal._fit_moments", "preliz/distributions/laplace.py:Laplace._fit_moments", "preliz/distributions/logistic.py:Logistic._fit_moments", "preliz/distributions/gumbel.py:Gumbel._fit_moments", "preliz/distributions/moyal.py:Moyal._fit_moments", "preliz/distributions/uniform.py:Uniform._fit_moments"]}
{"id": "C09", "title": "Moment-based initialisation is exact for positive families", "statement": "After fitting moments (m, s) the textbook mean and standard deviation of Gamma, InverseGamma, LogNormal, Wald, Pareto are m and s, and the mean of Exponential is m and the std of HalfNormal is s.", "quantifier": "every m,s>0", "why_tests_cant": "a continuum", "anchors": ["preliz/distributions/gamma.py:Gamma._fit_moments", "preliz/distributions/inversegamma.py:InverseGamma._fit_moments", "preliz/distributions/lognormal.py:LogNormal._fit_moments", "preliz/distributions/wald.py:Wald._fit_moments", "preliz/distributions/pareto.py:Pareto._fit_moments", "preliz/distributions/exponential.py:Exponential._fit_moments", "preliz/distributions/halfnormal.py:HalfNormal._fit_moments"]}
{"id": "C10", "title": "Moment-based initialisation respects the parameter domain for bounded and discrete families", "statement": "Fitting moments to Beta, BetaScaled, Triangular, DiscreteUniform, Bernoulli, Geometric, StudentT never leaves the admissible parameter set, and matches the requested moments whenever they are attainable.", "quantifier": "every requested (m, s) inside the family's support", "why_tests_cant": "a continuum with clamping branches", "anchors": ["preliz/distributions/beta.py:Beta._fit_moments", "preliz/distributions/betascaled.py:BetaScaled._fit_moments", "preliz/distributions/triangular.py:Triangular._fit_moments", "preliz/distributions/discrete_uniform.py:DiscreteUniform._fit_moments", "preliz/distributions/bernoulli.py:Bernoulli._fit_moments", "preliz/distributions/studentt.py:StudentT._fit_moments", "preliz/distributions/geometric.py:Geometric._fit_moments"]}
{"id": "C11", "title": "Truncated: a proper distribution on [lower, upper]", "statement": "The density/mass of Truncated(d, lower, upper) is zero outside [lower, upper], non-negative, totals one, and its cdf is 0 below, 1 above, monotone, and is the running total of the density/mass.", "quantifier": "every base distribution, every pair of bounds with positive base mass between them, every x", "why_tests_cant": "ranges over all base distributions and all real evaluation points", "anchors": ["preliz/distributions/truncated.py:Truncated.pdf", "preliz/distributions/truncated.py:Truncated.logpdf", "preliz/distributions/truncated.py:Truncated.cdf", "preliz/distributions/truncated.py:adjust_lower"]}
{"id": "C12", "title": "Truncated: ppf inverts cdf and samples stay inside the bounds", "statement": "For a base whose ppf is the generalised inverse of its cdf, Truncated.ppf is the generalised inverse of Truncated.cdf on (0,1], is NaN outside [0,1], and every value produced by rvs lies in [lower, upper].", "quantifier": "every base with a generalised-inverse ppf, every bounds with positive mass, every q / every random stream", "why_tests_cant": "all q in [0,1] and all random streams", "anchors": ["preliz/distributions/truncated.py:Truncated.ppf", "preliz/distributions/truncated.py:Truncated.rvs", "preliz/distributions/truncated.py:Truncated.cdf"]}
{"id": "C13", "title": "Modifier parameters are labelled correctly", "statement": "For Truncated, Censored and Hurdle the reported (name, value) pairs give each base parameter under its own name, whatever the order of keyword arguments and whichever base parametrisation they belong to, and the wrapper is frozen only when the base is completely specified.", "quantifier": "every base family, every list of keyword arguments in every order", "why_tests_cant": "all permutations and subsets of keyword arguments for all base families", "anchors": ["preliz/distributions/truncated.py:Truncated._parametrization", "preliz/distributions/censored.py:Censored._parametrization", "preliz/distributions/hurdle.py:Hurdle._parametrization"]}
{"id": "C14", "title": "Censored: probability is conserved", "statement": "For Censored(d, lower, upper) the point masses at the bounds plus the base mass strictly between them total one; values outside have zero mass; the mass at each bound is the base probability of falling on or beyond it.", "quantifier": "every base distribution, every lower<upper, every x", "why_tests_cant": "all base distributions and all bounds", "anchors": ["preliz/distributions/censored.py:Censored.logpdf", "preliz/distributions/censored.py:Censored.pdf"]}
{"id": "C15", "title": "Censored: cdf is the probability of being at most x", "statement": "Censored.cdf(x) equals the total mass of Censored at or below x; in particular it is 0 below lower and 1 from upper on.", "quantifier": "every base distribution, every lower<upper, every x", "why_tests_cant": "fails only at the single point x = upper, which random sampling never hits and grids usually miss", "anchors": ["preliz/distributions/censored.py:Censored.cdf"]}
{"id": "C16", "title": "Censored: ppf/median/rvs are the clipped base values", "statement": "Censored quantiles, median and samples always lie in [lower, upper], are monotone in q, and Censored.ppf is the generalised inverse of the true censored cdf.", "quantifier": "every base with generalised-inverse ppf, every bounds, every q and every random stream", "why_tests_cant": "all q and all random streams", "anchors": ["preliz/distributions/censored.py:Censored.ppf", "preliz/distributions/censored.py:Censored.median", "preliz/distributions/censored.py:Censored.rvs"]}
{"id": "C17", "title": "Censored: mean, variance, skewness and kurtosis are those of the censored variable", "statement": "The moments returned by Censored are the moments of clip(X, lower, upper) for X distributed as the base.", "quantifier": "every base distribution with finite moments and every bounds", "why_tests_cant": "all base distributions; an incorrect closed form can agree on symmetric test cases", "anchors": ["preliz/distributions/censored.py:Censored.mean", "preliz/distributions/censored.py:Censored.var", "preliz/distributions/censored.py:Censored.skewness", "preliz/distributions/censored.py:Censored.kurtosis"]}
{"id": "C18", "title": "Hurdle: a proper zero-modified distribution", "statement": "Hurdle(d, psi) has mass 1-psi at zero, mass psi on the rest, its masses total one, its cdf is the running total and is zero below zero, and its ppf returns 0 for q < 1-psi and inverts the cdf above.", "quantifier": "every base on the non-negative axis, every psi in (0,1), every x and q", "why_tests_cant": "all base distributions and all psi", "anchors": ["preliz/distributions/hurdle.py:Hurdle.pdf", "preliz/distributions/hurdle.py:Hurdle.cdf", "preliz/distributions/hurdle.py:Hurdle.ppf"]}
{"id": "C19", "title": "Mixture: convex combination with normalised weights", "statement": "For non-negative weights with positive sum, in any number and scale, the mixture's weights are non-negative and sum to one, pdf/cdf are the weighted combinations (so the mass totals one and cdf is monotone from 0 to 1), scaling all weights changes nothing, mean and variance are those of the mixture law.", "quantifier": "every number of components, every component distributions, every admissible weights", "why_tests_cant": "unbounded number of components and all weights", "anchors": ["preliz/distributions/mixture.py:Mixture._parametrization", "preliz/distributions/mixture.py:Mixture.pdf", "preliz/distributions/mixture.py:Mixture.cdf", "preliz/distributions/mixture.py:Mixture.mean", "preliz/distributions/mixture.py:Mixture.var"]}
{"id": "C20", "title": "Mixture: sampling returns exactly the requested number of draws, each from its component", "statement": "Mixture.rvs(size=n) returns n values, the number coming from component i is the number of times i was chosen; reordering by component is the only difference from element-wise sampling.", "quantifier": "every n, every choice vector produced by the generator, every component sampler", "why_tests_cant": "all random streams", "anchors": ["preliz/distributions/mixture.py:Mixture.rvs"]}
{"id": "C21", "title": "Equal-tailed interval leaves equal tails", "statement": "eti(mass) returns (lo, hi) with lo<=hi, base probability at most (1-mass)/2 strictly below lo and at most (1-mass)/2 above hi, for mass in (0,1]; intervals for larger mass contain those for smaller mass; for discrete distributions with integer quantiles the integer conversion loses nothing.", "quantifier": "every distribution with generalised-inverse ppf and every mass in (0,1]", "why_tests_cant": "all masses and all distributions", "anchors": ["preliz/distributions/distributions.py:Distribution.eti", "preliz/distributions/distributions.py:Distribution.sf", "preliz/distributions/distributions.py:Distribution.isf"]}
{"id": "C22", "title": "Discrete highest-density interval covers the requested mass", "statement": "For a discrete distribution whose grid carries at least the requested mass, hdi(mass) returns (lo, hi) from the grid with lo<=hi whose closed interval has at least the requested mass, and every grid point strictly denser than the least dense selected point lies inside; for unimodal mass functions the selected points are exactly the grid points of the interval up to ties, so no shorter grid interval reaches more mass.", "quantifier": "every finite grid, every mass function, every requested mass, every tie-breaking order of the sort", "why_tests_cant": "all mass functions and all tie-breaking orders", "anchors": ["preliz/internal/optimization.py:discrete_hdi", "preliz/internal/optimization.py:find_hdi"]}
{"id": "C23", "title": "Evaluation grid of a discrete distribution lies in the support and is sorted", "statement": "xvals of a discrete distribution returns increasing integers inside the requested end points, containing both end points, and all integers between them when the range is at most n_points; it returns at most n_points values.", "quantifier": "every integer lower<=upper and every n_points", "why_tests_cant": "all ranges; boundary arithmetic fails only when the range exceeds n_points", "anchors": ["preliz/distributions/distributions.py:Distribution.xvals", "preliz/distributions/distributions.py:_discrete_xvals"]}
{"id": "C24", "title": "Numerical quantile search brackets the quantile and terminates", "statement": "For q in (0,1) and any cdf tending to 0 and 1, the bracketing search terminates and hands the root finder an interval [left, right] with cdf(left)<=q<=cdf(right); outside [0,1] the result is NaN, at 0 and 1 the ends of the support.", "quantifier": "every cdf with the two limits, every q, every support", "why_tests_cant": "termination of an unbounded loop for all cdfs", "anchors": ["preliz/internal/optimization.py:find_ppf", "preliz/internal/optimization.py:_ppf_single"]}
{"id": "C25", "title": "Discrete mode search returns a maximiser", "statement": "find_discrete_mode returns a grid point whose mass is not exceeded by any grid point, the leftmost such point.", "quantifier": "every mass function and every non-empty grid", "why_tests_cant": "all mass functions", "anchors": ["preliz/internal/optimization.py:find_discrete_mode"]}
{"id": "C26", "title": "Fixed parameters stay fixed during optimisation", "statement": "Splitting a partially specified distribution into free indexes and fixed values and reassembling with any candidate vector for the free ones yields a full parameter assignment in which every user-fixed parameter has its user value and the free ones receive the candidate values in order, whatever the optimiser proposes.", "quantifier": "every number of parameters, every subset fixed, every candidate vector of matching length", "why_tests_cant": "all subsets and all optimiser iterates", "anchors": ["preliz/internal/optimization.py:get_params", "preliz/internal/optimization.py:get_fixed_params", "preliz/unidimensional/maxent.py:maxent", "preliz/distributions/betascaled.py:BetaScaled._parametrization", "preliz/distributions/wald.py:Wald._parametrization"]}
{"id": "C27", "title": "maxent picks the best feasible optimiser result", "statement": "Among the optimiser runs that completed, if some satisfy the mass constraint within 1e-4 the one used is feasible and has maximal entropy among the feasible ones (first on ties); if none is feasible the first run is used; the distribution is left parametrised with exactly that run's parameters.", "quantifier": "every list of optimiser results, every pattern of optimiser failure", "why_tests_cant": "all failure points and result lists; optimiser failure cannot be scheduled in unit tests", "anchors": ["preliz/internal/optimization.py:optimize_max_ent"]}
{"id": "C28", "title": "Distribution ranking selects a minimal loss", "statement": "When several candidate distributions are fitted, the one reported as best has the smallest loss among those with finite loss, the earliest on ties; with no finite loss nothing is reported; mle returns a permutation of all candidate indexes sorted by loss.", "quantifier": "every number of candidates and every sequence of losses (including infinite)", "why_tests_cant": "all sequences of losses", "anchors": ["preliz/internal/optimization.py:Loss", "preliz/internal/optimization.py:fit_to_sample", "preliz/internal/optimization.py:fit_to_epdf", "preliz/internal/optimization.py:fit_to_quartile", "preliz/unidimensional/mle.py:mle"]}
{"id": "C29", "title": "Small-sample penalty is the AICc correction and orders models by size", "statement": "The penalty added to the negative log-likelihood is half the AICc penalty; for a fixed sample size it is increasing in the number of parameters, positive, and tends to the AIC penalty; more samples never increase it.", "quantifier": "every sample size n and number of parameters k", "why_tests_cant": "all n and k; the formula has a pole at n = k+1", "anchors": ["preliz/internal/optimization.py:get_penalization"]}
{"id": "C30", "title": "End-point validation accepts exactly the bounds inside the support", "statement": "The raising form of the end-point check raises iff a bound lies outside a finite end of the support or the bounds equal a bounded support; the boolean form returns whether both bounds are inside; when the boolean form is true the raising form can only raise for the whole-support case.", "quantifier": "every support with finite or infinite ends, every pair of bounds", "why_tests_cant": "all supports and bounds including infinities", "anchors": ["preliz/distributions/distributions.py:Distribution._check_endpoints"]}
{"id": "C31", "title": "Elicitation functions reject malformed requests before touching the distribution", "statement": "maxent raises ValueError for mass outside (0,1], upper<=lower, unknown fixed statistics or a fully fixed distribution; quartile raises unless q1<q2<q3; an accepted request has all of these satisfied; a rejected request leaves the distribution's parameters as they were.", "quantifier": "every argument combination", "why_tests_cant": "all argument combinations and the order of checks", "anchors": ["preliz/unidimensional/maxent.py:maxent", "preliz/unidimensional/quartile.py:quartile"]}
{"id": "C32", "title": "combine: sample sizes follow the weights", "statement": "Given non-negative weights with positive sum, each expert contributes floor(sample_size*w_i/sum w) samples; the total is at most sample_size and more than sample_size minus the number of experts; negative weights are rejected; scaling the weights changes nothing.", "quantifier": "every number of experts, weights, sample size", "why_tests_cant": "all weight vectors", "anchors": ["preliz/unidimensional/combine.py:combine"]}
{"id": "C33", "title": "combine_roulette: pooled histogram is a probability distribution with the right mean and variance", "statement": "For responses on the same grid the pooled weights over distinct x are non-negative, sum to one, do not depend on the order of the responses (as a function of x), and the mean and variance handed to the fit are the mean and variance of the pooled histogram; different grids or negative weights are rejected.", "quantifier": "every number of responses, histograms, chips and weights", "why_tests_cant": "all lists of responses and orders", "anchors": ["preliz/unidimensional/combine_roulette.py:combine_roulette"]}
{"id": "C34", "title": "Roulette grid: chip counts stay within the grid for every click sequence", "statement": "After any sequence of clicks every column holds between 0 and nrows chips and other columns are unchanged by a click; clicking a row above the stack raises it to that row, clicking on or below the top lowers it.", "quantifier": "every sequence of clicks at every axes position, every grid size", "why_tests_cant": "unbounded event histories at real-valued coordinates", "anchors": ["preliz/unidimensional/roulette.py:_Rectangles.__call__"]}
{"id": "C35", "title": "Roulette: histogram handed to the fit is a probability distribution inside the elicited domain", "statement": "The x values used for the fit are the values labelled under the columns and lie in [x_min, x_max]; the probabilities are positive and sum to one; mean and std are those of the histogram.", "quantifier": "every grid state, every x_min<x_max and number of columns", "why_tests_cant": "all grid states", "anchors": ["preliz/unidimensional/roulette.py:Roulette._weights_to_pdf", "preliz/unidimensional/roulette.py:Roulette._create_grid"]}
{"id": "C36", "title": "rcParams always holds exactly the known keys with valid values", "statement": "After any sequence of set/delete/pop/clear/update/setdefault operations, each successful or failing, rcParams has exactly the documented keys, stats.ci_kind is 'eti' or 'hdi', stats.ci_prob is a number in [0,1], plots.show_plot is a bool; a failing assignment leaves the value unchanged.", "quantifier": "every sequence of operations with arbitrary values", "why_tests_cant": "unbounded histories and arbitrary values", "anchors": ["preliz/internal/rcparams.py:RcParams", "preliz/internal/rcparams.py:_validate_probability", "preliz/internal/rcparams.py:_validate_boolean", "preliz/internal/rcparams.py:_make_validate_choice"]}
{"id": "C37", "title": "rc_context restores the settings", "statement": "Leaving an rc_context, normally or through an exception, restores every setting to its value at entry, for any nesting and any changes made inside; a context that fails to start leaves the settings unchanged.", "quantifier": "every initial setting, every nesting, every sequence of changes inside, every point of failure", "why_tests_cant": "all nestings and failure points", "anchors": ["preliz/internal/rcparams.py:rc_context", "preliz/internal/rcparams.py:RcParams.copy"]}
{"id": "C38", "title": "Configuration file parsing", "statement": "Reading a prelizrc file yields, for each known key present, the validated value of its last occurrence; blank lines and comments are ignored; malformed lines only cause a warning; unknown keys or bad values are errors.", "quantifier": "every file content (list of lines)", "why_tests_cant": "all file contents", "anchors": ["preliz/internal/rcparams.py:read_rcfile", "preliz/internal/rcparams.py:rc_params"]}
{"id": "C39", "title": "Dirichlet elicitation: returned distribution has exactly the requested mode and the requested tail mass", "statement": "When dirichlet_mode returns, alpha_i = 1 + tau*mode_i with tau>0, the mode of the returned Dirichlet is the (normalised) requested mode, every alpha_i>1, and the average lower-tail probability is within 1e-4 of (1-mass)/2.", "quantifier": "every positive mode vector, bound, mass", "why_tests_cant": "all mode vectors and all marginal cdfs", "anchors": ["preliz/internal/optimization.py:optimize_dirichlet_mode", "preliz/multidimensional/dirichlet_mode.py:dirichlet_mode"]}
{"id": "C40", "title": "Dirichlet elicitation: the search terminates", "statement": "The halving / one-and-a-half search over the concentration always terminates when the averaged tail probability is a continuous strictly decreasing function of the concentration that takes the target value; it never terminates when the tail probability stays away from the target.", "quantifier": "every such tail-probability function and target", "why_tests_cant": "termination of an unbounded loop; convergence rests on a number-theoretic fact, not on monotone progress", "anchors": ["preliz/internal/optimization.py:optimize_dirichlet_mode"]}
{"id": "C41", "title": "Projected samples are unravelled without loss or overlap", "statement": "Splitting the optimised parameter matrix into named variables uses every column exactly once, in order, and gives each variable exactly its own number of columns (before the variable's back-transformation).", "quantifier": "every list of variables with arbitrary sizes and every matrix", "why_tests_cant": "all shapes", "anchors": ["preliz/ppls/pymc_io.py:unravel_projection"]}
{"id": "C42", "title": "Generated model text contains every top-level variable exactly once", "statement": "The text returned for new priors declares every variable that has no random parents exactly once, in model order, and a hierarchical variable refits its parents in place.", "quantifier": "every model graph and every variable order", "why_tests_cant": "all hierarchical model shapes; existing tests use one", "anchors": ["preliz/ppls/pymc_io.py:write_pymc_string", "preliz/ppls/bambi_io.py:write_bambi_string"]}
{"id": "C43", "title": "Conversion from PyMC inverts the parametrisation PyMC uses", "statement": "For each supported family, converting the PyMC node parameters recovers the PreliZ parameters the node was built from; missing (NaN) parameters become free parameters.", "quantifier": "every admissible parameter value of every modelled family", "why_tests_cant": "a continuum of parameters and several families", "anchors": ["preliz/ppls/pymc_io.py:_reparametrize", "preliz/ppls/pymc_io.py:_nan_to_none", "preliz/ppls/pymc_io.py:from_pymc"]}
{"id": "C44", "title": "Per-variable refits do not interfere", "statement": "posterior_to_prior / back-fitting reports, for every variable, the distribution fitted to that variable's own samples.", "quantifier": "every number of variables and every list of alternative families", "why_tests_cant": "requires aliasing between variables through shared candidate objects", "anchors": ["preliz/ppls/agnostic.py:back_fitting_idata", "preliz/ppls/pymc_io.py:back_fitting_pymc", "preliz/ppls/pymc_io.py:set_families"]}
{"id": "C45", "title": "ppe leaves the user's model as it found it", "statement": "After ppe returns or raises, the observed value bound to the observed variable in the user's model is the original one.", "quantifier": "every point at which an inner step may raise", "why_tests_cant": "crash points between mutation and restoration", "anchors": ["preliz/predictive/ppe.py:ppe", "preliz/ppls/pymc_io.py:compile_mllk"]}
{"id": "C46", "title": "Sampling-log suppression restores the logger", "statement": "disable_pymc_sampling_logs restores the logger's configuration on normal and exceptional exit.", "quantifier": "every logger configuration (own level, ancestors' levels) and every way of leaving the block", "why_tests_cant": "all configurations and exits", "anchors": ["preliz/ppls/agnostic.py:disable_pymc_sampling_logs"]}
{"id": "C47", "title": "Prior predictive assistant never shows a sample twice and never forgets a selection", "statement": "In any session, the indexes displayed in successive rounds are distinct and within range, an index is never displayed again in a later round, and the selected set only grows.", "quantifier": "every session (sequence of carry-on actions and selections), every neighbour structure", "why_tests_cant": "unbounded interactive histories", "anchors": ["preliz/predictive/ppa.py:FilterDistribution.initialize_subsamples", "preliz/predictive/ppa.py:FilterDistribution.keep_sampling", "preliz/predictive/ppa.py:FilterDistribution.carry_on"]}
{"id": "C48", "title": "Prior predictive assistant: the session can always continue until all samples were shown", "statement": "Asking for more samples never fails: while unseen samples remain they are displayed, and afterwards the all-seen message is shown.", "quantifier": "every session and every number of unseen samples", "why_tests_cant": "depends on exhaustion near the end of long sessions", "anchors": ["preliz/predictive/ppa.py:FilterDistribution.initialize_subsamples"]}
{"id": "C49", "title": "Prior predictive assistant respects the hard boundaries", "statement": "No displayed or automatically selected sample has values outside the user's boundaries, with or without a target.", "quantifier": "every sample matrix, boundaries and target", "why_tests_cant": "all sample matrices", "anchors": ["preliz/predictive/ppa.py:FilterDistribution.initialize_subsamples", "preliz/predictive/ppa.py:FilterDistribution.collect_more_samples"]}
{"id": "C50", "title": "Prior samples stay aligned with prior predictive samples", "statement": "The k-th prior sample of every variable and the k-th prior predictive sample come from the same evaluation of the model, so selecting prior predictive samples selects the parameters that generated them.", "quantifier": "every model function, number of draws and selection", "why_tests_cant": "all models and selections", "anchors": ["preliz/ppls/agnostic.py:get_prior_pp_samples", "preliz/internal/predictive_helper.py:select_prior_samples"]}
{"id": "C51", "title": "Compiled-function cache is transparent", "statement": "Calling a cached compiled function gives the same result as compiling afresh for that call, for any history of earlier calls; a compilation failure leaves the cache unchanged; each signature is compiled at most once.", "quantifier": "every sequence of calls with arbitrary argument shapes and dtypes, every failure", "why_tests_cant": "unbounded call histories", "anchors": ["preliz/internal/distribution_helper.py:pytensor_jit", "preliz/internal/distribution_helper.py:pytensor_rng_jit"]}
{"id": "C52", "title": "Extra-parameter strings are parsed per distribution", "statement": "From a text of the form Name(k=v, ...), ... the parser returns, for every well-formed entry, the dictionary of its keys and numbers, ignores malformed entries without affecting others, and a later entry for the same name replaces an earlier one.", "quantifier": "every input string", "why_tests_cant": "all strings", "anchors": ["preliz/internal/distribution_helper.py:process_extra"]}
{"id": "C53", "title": "match_moments matches the moments the user named", "statement": "The i-th target handed to the optimiser is the moment named by the i-th letter, computed with the same convention as the distribution's own moment, for distributions and for data arrays alike; non-finite requested moments are rejected.", "quantifier": "every string of moment letters and every distribution or data array", "why_tests_cant": "all letter orders", "anchors": ["preliz/unidimensional/matching.py:match_moments", "preliz/distributions/distributions.py:Distribution.moments"]}
{"id": "C54", "title": "Catalog queries succeed for every documented category", "statement": "catalog.get returns instances for every category named in its documentation; names returned are names of existing distributions; find returns exactly the distributions satisfying the filters.", "quantifier": "every documented category (finite), every filter", "why_tests_cant": "the unit tests exercise only some categories", "anchors": ["preliz/distributions/catalog.py:DistributionCatalog.get", "preliz/distributions/catalog.py:DistributionCatalog.find", "preliz/distributions/catalog.py:_GROUPS"]}
{"id": "C55", "title": "Interactive sliders contain the current value", "statement": "The slider range generated for a parameter value inside its support contains the value and stays within the support's finite ends.", "quantifier": "every value, lower, upper", "why_tests_cant": "a continuum and a special case at zero", "anchors": ["preliz/internal/plot_helper.py:generate_range"]}
{"id": "C56", "title": "Circular intervals", "statement": "For VonMises the equal-tailed and highest-density intervals have both ends in (-pi, pi], and are the base interval rotated by mu modulo 2*pi; the distribution's own parameters are unchanged afterwards even if the computation fails.", "quantifier": "every mu, kappa, mass and failure point", "why_tests_cant": "all angles including wrap-around and exceptions", "anchors": ["preliz/distributions/vonmises.py:VonMises.eti", "preliz/distributions/vonmises.py:VonMises.hdi", "preliz/distributions/vonmises.py:VonMises._warp_interval"]}
{"id": "C57", "title": "Sample mean and standard deviation helper", "statement": "mean_and_std returns the population mean and standard deviation; it is shift-equivariant and scale-equivariant, and maximum-likelihood fits that use it return the maximiser of the likelihood for the Normal family.", "quantifier": "every non-empty data list", "why_tests_cant": "all data lists of all lengths", "anchors": ["preliz/internal/special.py:mean_and_std", "preliz/distributions/normal.py:Normal._fit_mle"]}
{"id": "C58", "title": "Closed-form maximum-likelihood fits are optimal", "statement": "For the families fitted in closed form (Normal, LogNormal, Exponential, Poisson, Geometric, Uniform, DiscreteUniform, Laplace, HalfNormal) no admissible parameter value gives the sample a larger likelihood than the fitted one.", "quantifier": "every non-empty sample in the support and every competing parameter", "why_tests_cant": "all samples and all competing parameter values", "anchors": ["preliz/distributions/exponential.py:Exponential._fit_mle", "preliz/distributions/poisson.py:Poisson._fit_mle", "preliz/distributions/geometric.py:Geometric._fit_mle", "preliz/distributions/lognormal.py:LogNormal._fit_mle", "preliz/distributions/discrete_uniform.py:DiscreteUniform._fit_mle", "preliz/distributions/uniform.py:Uniform._fit_mle", "preliz/distributions/laplace.py:Laplace._fit_mle", "preliz/distributions/halfnormal.py:HalfNormal._fit_mle"]}
{"id": "C59", "title": "Entropy of a censored distribution", "statement": "The entropy reported for a censored distribution is the entropy of the censored variable: the base distribution's mass inside the bounds plus a lump at each bound.", "quantifier": "every base distribution, all bounds, continuous and discrete", "why_tests_cant": "a continuum of bases and bounds; discrete and continuous bases differ", "anchors": ["preliz/distributions/censored.py:Censored.entropy"]}
{"id": "C60", "title": "Fits in closed form give the sample a positive likelihood", "statement": "The distribution that mle fits in closed form to a sample has admissible parameters and gives the sample a positive likelihood (Triangular, Binomial).", "quantifier": "every non-constant sample in the support", "why_tests_cant": "all samples", "anchors": ["preliz/distributions/triangular.py:Triangular._fit_mle", "preliz/distributions/binomial.py:nb_fit_mle"]}
{"id": "C61", "title": "Moments and entropy of a truncated discrete distribution", "statement": "Mean, variance, standard deviation, skewness, excess kurtosis, median and entropy reported for a truncated discrete distribution are those of the base distribution conditioned on the bounds.", "quantifier": "every discrete base, every pair of bounds with positive probability between them", "why_tests_cant": "the computation sums over an evaluation grid of at most about 200 points; whether the grid is complete depends on the bounds", "anchors": ["preliz/distributions/truncated.py:Truncated.mean", "preliz/distributions/truncated.py:Truncated.var", "preliz/distributions/truncated.py:Truncated.entropy", "preliz/internal/distribution_helper.py:num_skewness", "preliz/internal/distribution_helper.py:num_kurtosis"]}
{"id": "C62", "title": "Grid moments and entropy of hurdle and mixture distributions", "statement": "For discrete components, the mean, variance and entropy of a hurdle distribution are those of the hurdle law, and the skewness, excess kurtosis and entropy of a mixture are those of the mixture law.", "quantifier": "every discrete base or list of discrete components, every hurdle probability, every list of weights", "why_tests_cant": "the sums run over an evaluation grid taken from the base support, which need not contain the atom at zero; a test with a Poisson base never sees this", "anchors": ["preliz/distributions/hurdle.py:Hurdle.mean", "preliz/distributions/hurdle.py:Hurdle.var", "preliz/distributions/hurdle.py:Hurdle.entropy", "preliz/distributions/mixture.py:Mixture.entropy", "preliz/distributions/mixture.py:Mixture.skewness", "preliz/internal/distribution_helper.py:num_skewness"]}
{"id": "C63", "title": "Highest-density contours", "statement": "The contour level drawn for a probability p bounds the region of highest density holding p of the total: the cells above the level hold at most p, and any region reaching down to a lower density value holds more than p. Levels come one per probability, in increasing order.", "quantifier": "every density array with non-negative entries and positive total, every list of probabilities", "why_tests_cant": "which cells are inside depends on the order statistics and partial sums of the whole array, including ties", "anchors": ["preliz/internal/plot_helper_multivariate.py:find_hdi_contours", "preliz/internal/plot_helper_multivariate.py:DirichletOnSimplex.plot"]}
{"id": "C64", "title": "Multivariate distributions: parameters, mode and coordinates", "statement": "A multivariate normal built from a covariance or from its inverse is the same distribution and reports what it was given; the mode of a Dirichlet is the unique maximiser of its density; plotted marginals have the mean and variance of the coordinate; points of the triangle are converted to their barycentric coordinates; the panel grid fits all panels.", "quantifier": "every dimension, every parameter vector and matrix, every point", "why_tests_cant": "statement about all dimensions and all matrices; optimality of the mode cannot be sampled", "anchors": ["preliz/distributions/continuous_multivariate.py:MvNormal", "preliz/distributions/continuous_multivariate.py:Dirichlet", "preliz/internal/plot_helper_multivariate.py:DirichletOnSimplex.xy2bc", "preliz/internal/plot_helper_multivariate.py:get_cols_rows"]}
{"id": "C65", "title": "Closed-form fits of VonMises, ExGaussian and SkewNormal", "statement": "Fitting VonMises to a sample gives the maximum-likelihood mean direction, inside [-pi, pi), and concentration. Fitting ExGaussian gives a distribution with the mean, variance and skewness of the sample. The shape SkewNormal starts from is a finite number that corresponds to the skewness of the sample.", "quantifier": "every sample", "why_tests_cant": "optimality over all parameters is a statement about a continuum, and the failing samples are the strongly skewed ones", "anchors": ["preliz/distributions/vonmises.py:VonMises._fit_mle", "preliz/internal/optimization.py:find_kappa", "preliz/distributions/exgaussian.py:ExGaussian._fit_mle", "preliz/distributions/skewnormal.py:SkewNormal._fit_mle"]}
{"id": "C66", "title": "Numerical maximum likelihood does not depend on the parametrisation", "statement": "mle on a distribution object returns the most likely parameters of the family for the sample, whichever of its parametrisations the object was built with, and keeps that parametrisation.", "quantifier": "every family with several parametrisations that is fitted numerically, every sample, every density, every optimiser that finds the minimum within the bounds it is given", "why_tests_cant": "every fit converges to something; that the bounds exclude the optimum shows only by comparing with all other parameter values", "anchors": ["preliz/internal/optimization.py:optimize_ml", "preliz/distributions/beta.py:Beta._parametrization", "preliz/distributions/asymmetric_laplace.py:AsymmetricLaplace._parametrization"]}
{"id": "C67", "title": "No warning means the request is met", "statement": "maxent, quartile and match_quantiles warn exactly if the distribution they return misses the request: the probability of the requested interval, the three quartiles, or the requested quantiles; what the warning prints are the values of the returned distribution. Bounds for a discrete distribution are warned about exactly if they are not integers. Quantile targets taken from an array are sample quantiles.", "quantifier": "every distribution, every request, every array", "why_tests_cant": "needs distributions the optimiser does not fit well, for which no reference exists, and all orderings of the data", "anchors": ["preliz/internal/optimization.py:relative_error", "preliz/unidimensional/maxent.py:maxent", "preliz/unidimensional/maxent.py:is_integer_num", "preliz/unidimensional/quartile.py:quartile", "preliz/unidimensional/matching.py:match_quantiles", "preliz/unidimensional/matching.py:_check_relative_error"]}
{"id": "C68", "title": "info() lists equivalent parametrisations", "statement": "info() of a distribution lists the documented parametrisations of its family, and for a distribution with all its parameters set, whatever was done to it before, a table of values with one row for each of them; every row has all its values, and building the family from any row gives a distribution with the same table.", "quantifier": "every family, every history of constructions, re-parametrisations and refits with arguments in the documented domain", "why_tests_cant": "the table is only looked at for a single Gamma; the histories and parameter values are unbounded", "anchors": ["preliz/distributions/distributions.py:info", "preliz/distributions/beta.py:_update", "preliz/distributions/gamma.py:_update", "preliz/distributions/wald.py:_update", "preliz/distributions/normal.py:_update"]}
{"id": "C69", "title": "Conversion of compound PyMC variables and Prior objects", "statement": "A PyMC variable or a pymc-extras Prior passed where a distribution is expected is read as the PreliZ distribution with the same structure: censored, truncated, hurdle, zero-inflated and mixture variables keep their base or components (in order), parameters, bounds (an absent one is infinite) and weights, at any depth of nesting; operators and names PreliZ does not know, and missing required pieces, are refused.", "quantifier": "every finite nesting of variables, every parameter value, bound and weight", "why_tests_cant": "seven PyMC variables and a few Priors are tried; the nestings and values are unbounded", "anchors": ["preliz/ppls/pymc_io.py:from_pymc", "preliz/ppls/pymc_io.py:from_prior", "preliz/ppls/pymc_io.py:if_pymc_get_preliz"]}
{"id": "C70", "title": "summary() reports the quantities it names", "statement": "summary() shows mean, median and standard deviation rounded to the requested decimals, and an interval: for kind eti or hdi (or the configured kind) exactly what eti() or hdi() returns for the same mass and format; for a pair of probabilities the two quantiles, lower before upper. Undefined, non-numeric and categorical distributions, wrong formats and wrong interval names are refused with a ValueError. The result carries the displayed name of the distribution.", "quantifier": "every distribution, mass, configured kind, number of decimals, interval argument", "why_tests_cant": "a handful of distributions and a fixed format are checked", "anchors": ["preliz/distributions/distributions.py:summary", "preliz/distributions/distributions.py:eti", "preliz/distributions/distributions.py:hdi", "preliz/distributions/distributions.py:_get_name"]}
{"id": "C71", "title": "hdi() of a continuous distribution is the shortest interval of the requested mass", "statement": "For a continuous distribution and a mass strictly between 0 and 1, hdi() returns an interval inside the support whose probability is the requested mass and which is no longer than any interval holding at least that mass. If the density rises and then falls, no point outside the interval has higher density than a point inside it. For a censored distribution the interval also has the requested mass.", "quantifier": "every continuous distribution, mass in (0, 1), and censoring bounds", "why_tests_cant": "the numbers are compared for a few distributions; being the shortest is a statement about all other intervals", "anchors": ["preliz/internal/optimization.py:find_hdi", "preliz/internal/optimization.py:continuous_hdi", "preliz/distributions/distributions.py:hdi"]}
{"id": "C72", "title": "to_pymc() and to_bambi() hand over the distribution they are called on", "statement": "Outside a model, to_pymc() followed by from_pymc() gives back the distribution: same structure to any depth of modifiers, parameters, bounds and weights. Inside a model the same expression is built. A distribution without parameters or without a PyMC class is refused wherever it is nested. to_bambi() gives a Prior that determines the distribution.", "quantifier": "every distribution, modifiers nested to any depth, inside and outside a model", "why_tests_cant": "single distributions are converted with fixed parameters; nesting and the model context are not combined", "anchors": ["preliz/distributions/distributions.py:to_pymc", "preliz/distributions/distributions.py:to_bambi", "preliz/distributions/distributions.py:params_dict"]}
{"id": "C73", "title": "Moment matching for Rice and Weibull gives the law with the requested moments", "statement": "Fitting a Rice to the mean and standard deviation of any Rice law gives a Rice law with exactly that mean and deviation. Fitting a Weibull to any positive mean and deviation gives positive parameters and a Weibull law with exactly that mean, and approximately that deviation.", "quantifier": "every positive mean and standard deviation, every Rice law", "why_tests_cant": "tests round-trip a handful of parameter values with tolerances; the low-ratio branch of Rice and the large-deviation range of Weibull are never reached", "anchors": ["preliz/internal/optimization.py:optimize_moments_rice", "preliz/internal/special.py:garcia_approximation", "preliz/distributions/rice.py:Rice._fit_moments", "preliz/distributions/weibull.py:Weibull._fit_moments"]}
{"id": "C74", "title": "Numerical fits return the best distribution that keeps the given values", "statement": "A fit by a numerical optimiser (quartiles, histogram, moments, quantiles, starting values from mean and deviation) returns a distribution the user could have built with the values they fixed, and no other such distribution within the bounds is closer to the request; in particular a request that can be met exactly is met exactly. The result depends on the starting point and the fixed values only, not on earlier evaluations or on what the object held before. The loss of a histogram fit is the one of the distribution returned.", "quantifier": "every family, parametrisation, subset of fixed parameters, request, and optimiser that finds the minimum by evaluating at points of its choice in any order", "why_tests_cant": "the object under optimisation is mutated by every evaluation; tests compare a few final values with tolerances and cannot see whether an evaluation depended on an earlier one", "anchors": ["preliz/internal/optimization.py:optimize_quartile", "preliz/internal/optimization.py:optimize_pdf", "preliz/internal/optimization.py:optimize_moments", "preliz/internal/optimization.py:optimize_quantiles", "preliz/internal/optimization.py:optimize_mean_sigma", "preliz/internal/optimization.py:get_params"]}
{"id": "C75", "title": "A fit does not depend on earlier fits", "statement": "Fitting a distribution to a sample gives the same result whether the object is new or was fitted before; a vector-valued prior, or a two-dimensional sample, is fitted component by component, each component getting the distribution fitted to its own draws.", "quantifier": "every family, sample, earlier state of the object, number of components, and optimiser", "why_tests_cant": "needs repeated fits of one object for every family; the few tests fit a new object once", "anchors": ["preliz/internal/optimization.py:optimize_mean_sigma", "preliz/internal/optimization.py:optimize_ml", "preliz/internal/optimization.py:fit_to_sample", "preliz/ppls/pymc_io.py:back_fitting_pymc", "preliz/internal/predictive_helper.py:back_fitting_ppa"]}
{"id": "C76", "title": "predictive_explorer labels its text boxes with the right bounds", "statement": "predictive_explorer reads the source of the model function. Every parameter of the function that is an argument of a distribution gets a text box whose starting value and displayed bounds are those of the parameter of that distribution it stands for; when it enters through exp, abs, expit, log or a power, the bounds contain exactly the values for which the result is valid.", "quantifier": "every model source, distribution, argument list, parameter and default value", "why_tests_cant": "source texts are unbounded and the regular expressions backtrack; tests use two or three models with positional arguments", "anchors": ["preliz/ppls/agnostic.py:parse_function_for_pred_textboxes", "preliz/ppls/agnostic.py:parse_arguments", "preliz/ppls/agnostic.py:match_preliz_dist", "preliz/internal/plot_helper.py:get_textboxes"]}
{"id": "C77", "title": "ppa reads the priors of the model function", "statement": "predictive finder (ppa) reads the source of the model function. The variables it works with are those of the return statement, in their order; the last one is the observed variable, and for every other variable the prior that is fitted to the selection is of the distribution last assigned to that variable. A model in Bambi is read the same way.", "quantifier": "every model source: any number of assignments and returned variables, any names, arguments and white space", "why_tests_cant": "source texts are unbounded and read by regular expressions; tests run one or two short models", "anchors": ["preliz/ppls/agnostic.py:from_preliz", "preliz/ppls/agnostic.py:match_preliz_dist", "preliz/ppls/bambi_io.py:dict_model", "preliz/ppls/bambi_io.py:match_return_variables", "preliz/ppls/bambi_io.py:from_bambi", "preliz/internal/predictive_helper.py:back_fitting_ppa"]}
{"id": "C78", "title": "Moment matching for HalfStudentT, ExGaussian and mixtures", "statement": "After fitting a mean m and a deviation s, a HalfStudentT has the deviation s and the nu it was given, an ExGaussian has mean m and deviation s, and a mixture whose components can all have these moments has them too, keeps the weights it was given and lists the parameters it now has.", "quantifier": "every s>0, every m, every given nu, any number of components and weights", "why_tests_cant": "a continuum of requests; the HalfStudentT formula rests on a gamma-function inequality for every nu", "anchors": ["preliz/distributions/halfstudentt.py:HalfStudentT._fit_moments", "preliz/distributions/exgaussian.py:ExGaussian._fit_moments", "preliz/distributions/mixture.py:Mixture._fit_moments"]}
{"id": "C79", "title": "Point and interval below a plot show the median and the named intervals", "statement": "The point-and-interval summary below a plot draws, for two probability levels, a thin line over exactly the values of the second interval and a thick line over exactly those of the first one, with a dot at the median; for quantiles the lines join the outer and the inner quantiles and the dot is at the middle one; any other number of levels is rejected.", "quantifier": "every distribution or sample, every kind and list of levels, rotated or not", "why_tests_cant": "a continuum of intervals; tests only check that a figure appears", "anchors": ["preliz/internal/plot_helper.py:plot_pointinterval", "preliz/internal/plot_helper.py:_plot_sub_iterval"]}
{"id": "C80", "title": "Survival functions of modified distributions", "statement": "sf(x) of a truncated, censored, hurdle or mixture distribution is the probability of a value beyond x; logsf and logcdf are the logarithms of the tail probabilities, minus infinity for zero; isf(q), for q in [0, 1), is the smallest point beyond which at most q lies.", "quantifier": "every base, bounds, psi, weights, every x and q", "why_tests_cant": "a continuum of points and levels, exact identities at jumps", "anchors": ["preliz/distributions/distributions.py:Distribution.sf", "preliz/distributions/distributions.py:Distribution.logsf", "preliz/distributions/distributions.py:Distribution.logcdf", "preliz/distributions/distributions.py:Distribution.isf", "preliz/distributions/truncated.py:Truncated", "preliz/distributions/censored.py:Censored", "preliz/distributions/hurdle.py:Hurdle", "preliz/distributions/mixture.py:Mixture"]}
{"id": "C81", "title": "Curves drawn for discrete distributions", "statement": "The step curves of plot_cdf and plot_sf show P(X <= y) and P(X > y) at every place of the figure, the markers of plot_pdf are at the probabilities of the values, and a dashed line marks every point mass of a censored continuous distribution that lies in the figure.", "quantifier": "every discrete distribution, every support shown, every place y", "why_tests_cant": "tests only check that a figure appears; the claim is about every place of the curve", "anchors": ["preliz/internal/plot_helper.py:plot_cdf", "preliz/internal/plot_helper.py:plot_sf", "preliz/internal/plot_helper.py:plot_pdfpmf"]}
{"id": "C82", "title": "Projection of a target onto a model", "statement": "ppe runs one optimisation per iteration plus an initial one, each starting at the previous result, and keeps all results but the first; the observations of each round are a fresh sample of the target, for weighted targets a sample of their mixture; weights that are not probabilities are rejected; different random states give different samples.", "quantifier": "every model loss, target, number of draws and iterations, every generator", "why_tests_cant": "hundreds of optimisations with random inputs; tests only look at the printed priors", "anchors": ["preliz/predictive/ppe.py:ppe", "preliz/internal/optimization.py:optimize_pymc_model", "preliz/internal/optimization.py:get_weighted_rvs"]}
{"id": "C83", "title": "Repeated drawings of the explorer", "statement": "predictive_explorer draws, each time a control changes, one curve or histogram for every complete run of the user's function and one for all values; the kind can be switched at will; an empirical distribution curve has one point per value, at a height between the share of values below it and the share up to it; every value of a histogram lies in a bin; without a named variable the group decides which one is shown.", "quantifier": "every sequence of drawings, every number of runs, all values, missing ones included", "why_tests_cant": "needs a notebook and a sequence of user actions; tests draw once, with one kind", "anchors": ["preliz/predictive/predictive_explorer.py:predictive_explorer", "preliz/ppls/agnostic.py:ppl_plot_decorator", "preliz/internal/plot_helper.py:plot_repr"]}
{"id": "C84", "title": "A roulette session reports what it shows", "statement": "At any time in a roulette session the attributes inputs and dist describe the chips, axis, families and extra parameters on the screen, and the drawn curve is that of dist; the widgets, the grid and the object agree on axis and size; ticking the boxes selects exactly the families they stand for.", "quantifier": "every sequence of clicks, changes of the axis, the size, the families, the boxes, the representation and the extra parameters; every fit", "why_tests_cant": "an interactive tool with ten widgets whose observers call each other; tests only build the grid", "anchors": ["preliz/unidimensional/roulette.py:Roulette._on_leave_fig", "preliz/unidimensional/roulette.py:Roulette._update_grid", "preliz/unidimensional/roulette.py:Roulette._handle_checkbox_widget", "preliz/unidimensional/roulette.py:Roulette._setup_observers"]}
{"id": "C85", "title": "Choice of a family from quartiles", "statement": "QuartileInt returns, among the selected families whose support contains the quartiles and after setting the extra parameters, the fitted one that comes closest to the quartiles; none only if no family qualifies; the shown curve and the dist attribute always belong to the values in the boxes.", "quantifier": "all quartiles, every list of families, all extra parameters, every fit result, every sequence of user actions", "why_tests_cant": "needs a notebook; tests compare a few families with fixed quartiles", "anchors": ["preliz/internal/optimization.py:fit_to_quartile", "preliz/internal/optimization.py:relative_error", "preliz/unidimensional/quartile_int.py:QuartileInt._match_distribution", "preliz/unidimensional/quartile_int.py:QuartileInt._setup_observers"]}
{"id": "C86", "title": "Similarity in the prior predictive assistant", "statement": "ppa compares samples by octiles, which do not depend on the order of the values, follow a change of unit, increase with the level and split the sample in the stated shares; the automatic selection stops at a distance inside the 10%-90% range of the known distances; with a target the samples nearest to it are shown first.", "quantifier": "all samples of any length, all levels between 0 and 1, all lists of distances, every nearest-neighbour order", "why_tests_cant": "tests only start the widget; which samples are near is never compared with a definition", "anchors": ["preliz/predictive/ppa.py:PPA.compute_octiles", "preliz/predictive/ppa.py:PPA.collect_more_samples", "preliz/predictive/ppa.py:PPA.add_target_dist", "preliz/predictive/ppa.py:PPA.initialize_subsamples"]}
{"id": "C87", "title": "mle and the objects it is given", "statement": "mle changes exactly the distribution objects it is given: each ends as the maximum likelihood fit it would get alone, others stay as they are; the returned indexes order them by corrected AIC, NaN last; it warns exactly if nothing could be fitted; unsupported objects are rejected before anything is changed.", "quantifier": "every list of distinct objects, every sample, every fit function and support, any sorting algorithm", "why_tests_cant": "tests fit one fresh object per family; repeated fits and lists of objects are not compared with separate fits", "anchors": ["preliz/unidimensional/mle.py:mle", "preliz/internal/optimization.py:fit_to_sample", "preliz/internal/optimization.py:Loss", "preliz/internal/distribution_helper.py:valid_distribution"]}
{"id": "C88", "title": "Non-integer counts and grid ends", "statement": "Binomial, BetaBinomial, ZeroInflatedBinomial and HyperGeometric keep the integer part (towards zero) of a non-integer count, in the attribute and in params; DiscreteUniform widens its limits to the enclosing integers; the integer grid over given ends covers exactly the integers between the integer parts of the two ends when they fit in the number of points.", "quantifier": "every real count, limit and grid end, every previous state of the object", "why_tests_cant": "tests build these families with integer counts only", "anchors": ["preliz/distributions/binomial.py:Binomial._update", "preliz/distributions/betabinomial.py:BetaBinomial._update", "preliz/distributions/zi_binomial.py:ZeroInflatedBinomial._update", "preliz/distributions/hypergeometric.py:HyperGeometric._update", "preliz/distributions/discrete_uniform.py:DiscreteUniform._update", "preliz/distributions/distributions.py:Discrete.xvals"]}
{"id": "C89", "title": "Samples follow the distribution they are drawn from", "statement": "From independent uniform numbers Truncated.rvs and Hurdle.rvs produce independent draws from the law they report, Censored.rvs from the law of the clipped variable; in a Mixture sample the expected number of values in any set is the size times its probability; the array has the requested shape.", "quantifier": "every base distribution, all bounds with positive mass, every hurdle probability in (0,1], all weights and component counts, every size", "why_tests_cant": "tests compare sample means with tolerances; laws and joint independence of samples cannot be tested", "anchors": ["preliz/distributions/truncated.py:Truncated.rvs", "preliz/distributions/hurdle.py:Hurdle.rvs", "preliz/distributions/censored.py:Censored.rvs", "preliz/distributions/mixture.py:Mixture.rvs"]}
{"id": "C90", "title": "hdi() of a discrete distribution with many values", "statement": "For a discrete distribution hdi(mass) reports integers and the interval they enclose has at least the requested mass and is a shortest such interval, also when the support is wide; ranking of the values by probability is used exactly when the ends of the support are less than 198 apart.", "quantifier": "every discrete distribution, every mass in (0,1), any numerical minimiser", "why_tests_cant": "tests use distributions with few values, for which the values are ranked", "anchors": ["preliz/internal/optimization.py:find_hdi", "preliz/internal/optimization.py:continuous_hdi", "preliz/distributions/distributions.py:Distribution.hdi"]}
{"id": "C91", "title": "Moments of modified continuous distributions are computed on a grid", "statement": "For a Truncated, Hurdle or Mixture of continuous distributions the reported mean, variance, skewness, kurtosis and entropy are those of the modified law, up to the error of the trapezoidal rule on 1000 equally spaced points, and the grid leaves out a probability of at most 0.0002; the mass at zero of a Hurdle is taken into account.", "quantifier": "every continuous base with a twice continuously differentiable density, every truncation interval, psi, and weights", "why_tests_cant": "tests compare a few distributions with scipy at a loose tolerance", "anchors": ["preliz/distributions/truncated.py:Truncated.mean", "preliz/distributions/truncated.py:Truncated.var", "preliz/distributions/truncated.py:Truncated.entropy", "preliz/distributions/hurdle.py:Hurdle.mean", "preliz/distributions/hurdle.py:Hurdle.var", "preliz/distributions/mixture.py:Mixture.skewness", "preliz/internal/distribution_helper.py:num_skewness", "preliz/internal/distribution_helper.py:num_kurtosis"]}
{"id": "C92", "title": "Every method of a univariate family passes its own parameters to the numerical library", "statement": "Calling pdf, cdf, ppf, logpdf, entropy, mean, median, mode, var, std, skewness, kurtosis, an L-moment or rvs on a univariate distribution with scalar parameters reaches the library function of the same name in the module of that family, with the caller's point or level first and then the family's parameters in the library's order, whatever parametrisation was used and whatever the object was before; rvs passes size and random state on; distributions with different parameters reach the library with different numbers; the zero-inflated families answer 0 for points outside the support.", "quantifier": "all 44 families, all methods, all parameter values, all histories of the object, all arguments", "why_tests_cant": "one swapped or forgotten argument in about 750 hand-written calls shows only for the method, family and parameters that a test happens to use", "anchors": ["preliz/distributions/normal.py:Normal.pdf", "preliz/distributions/asymmetric_laplace.py:AsymmetricLaplace.cdf", "preliz/distributions/skew_studentt.py:SkewStudentT.pdf", "preliz/distributions/negativebinomial.py:NegativeBinomial.rvs", "preliz/distributions/zi_poisson.py:ZeroInflatedPoisson.pdf", "preliz/distributions/zi_binomial.py:ZeroInflatedBinomial.pdf", "preliz/distributions/zi_negativebinomial.py:ZeroInflatedNegativeBinomial.pdf"]}
{"id": "C93", "title": "Families and engine when samples are turned into priors", "statement": "posterior_to_prior and ppe give each free variable its own distribution of the family its prior is named after (a KeyError if there is none of that name, never a modifier); the family of the prior is always the first candidate; 'auto' adds Normal, HalfNormal and Gamma, no family twice; alternatives given per variable are used for that variable only; a model of either library is recognised and answered in that library's syntax, any other engine is refused.", "quantifier": "every list of free variables, every prior family, every choice of alternative families, every engine argument", "why_tests_cant": "tests use one model with two variables and the default engine; the failing combinations are never called", "anchors": ["preliz/ppls/agnostic.py:posterior_to_prior", "preliz/ppls/agnostic.py:back_fitting_idata", "preliz/ppls/agnostic.py:get_engine", "preliz/ppls/pymc_io.py:extract_preliz_distributions", "preliz/ppls/pymc_io.py:set_families", "preliz/internal/distribution_helper.py:get_distributions"]}
{"id": "C94", "title": "Categorical: probabilities, log odds and what is not checked", "statement": "Categorical(p) is frozen, takes the values 0 \u2026 n-1, reports p and stores its log odds; Categorical(logit_p=l) reports l; for entries in [0,1] both spellings build the same distribution, 0 and 1 (log odds -inf and inf) included; both arguments are refused with a ValueError, neither leaves it without support; every method passes the probabilities to the library function of the same name. Probabilities built from log odds sum to one.", "quantifier": "every vector of probabilities and every vector of extended real log odds, of any length; every method", "why_tests_cant": "tests build one vector of three probabilities that already sums to one and never use log odds with three categories", "anchors": ["preliz/distributions/categorical.py:Categorical.__init__", "preliz/distributions/categorical.py:Categorical._parametrization", "preliz/distributions/categorical.py:Categorical._update", "preliz/internal/special.py:logit", "preliz/internal/special.py:expit", "preliz/internal/special.py:xlogx"]}
{"id": "C95", "title": "citations returns the entries asked for", "statement": "citations('all') returns every entry of the reference file exactly once and complete; without arguments the two entries about PreliZ; for a list of functions exactly the entries cited in their docstrings, whichever citation role is used and however often they are cited; a key that begins like another is not mistaken for it; a cited key without an entry is an AttributeError, an object without docstring a TypeError; with a path the same text is written there; other formats are refused. A name given as a string returns the references of that method.", "quantifier": "every reference file made of entries with keys of their own, every list of docstrings, every order in which a set is iterated over", "why_tests_cant": "tests call it three times and look at nothing that is returned", "anchors": ["preliz/internal/citations.py:citations", "preliz/internal/citations.py:_citation_bibtex", "preliz/internal/reference.bib"]}
{"id": "C96", "title": "plot passes its arguments on to the function that draws", "statement": "plot(dist, kind) refuses every kind but pdf, cdf, ppf, sf, isf. For a univariate distribution each argument (moments, pointinterval, interval, levels, legend, figsize, ax; support unless ppf or isf; baseline for pdf) reaches the drawing function under the same name and unchanged, and further keywords reach it as given; for Dirichlet and MvNormal likewise, with marginals for pdf and always marginals for the others. Nothing is drawn before the parameters are fixed; with scalar parameters the distribution is drawn once; with arrays of one length plot_pdf draws one curve for each entry with exactly those parameters, arrays of different lengths are refused. Further keywords are accepted for every distribution; all plotting methods accept arrays; every curve has the line and marker asked for.", "quantifier": "every class, kind, argument values, further keywords, number and length of arrays", "why_tests_cant": "tests call plot with a few combinations and check that no exception is raised, not what arrives where", "anchors": ["preliz/distributions/plot.py:plot", "preliz/distributions/distributions.py:Distribution.plot_pdf", "preliz/distributions/distributions.py:Distribution.plot_cdf", "preliz/distributions/distributions.py:Distribution._unpack_distribution", "preliz/distributions/continuous_multivariate.py:Dirichlet.plot_pdf", "preliz/internal/distribution_helper.py:valid_scalar_params", "preliz/internal/plot_helper.py:plot_pdfpmf"]}
{"id": "C97", "title": "One panel for each coordinate or sample; labels and references", "statement": "Plotting the marginals of a Dirichlet or MvNormal draws every coordinate exactly once on a panel of its own, with the arguments given, by the function of the kind asked for, and removes the panels left over; the joint density is drawn in dimension 3 (Dirichlet) or 2 (MvNormal) and refused otherwise. moments returns the value of each letter in order; a label shows every moment asked for once with its own symbol; legend=None, 'title', 'legend' or another string decide between nothing, a title, a legend with the text of the distribution, a legend with that string. The figure of ppa has a panel for every sample; a shared axis shows all panels completely; every reference value gets one line (and its label). Marginals can be drawn on axes that are given, with the default legend, in every dimension; unknown letters of moments are ignored; the pooled panel shows exactly the selected samples.", "quantifier": "every dimension, number of axes, letters, legend, list of samples, selection and references", "why_tests_cant": "tests plot in two or three dimensions on new axes and do not look at which coordinate is where", "anchors": ["preliz/internal/plot_helper_multivariate.py:plot_dirichlet", "preliz/internal/plot_helper_multivariate.py:plot_mvnormal", "preliz/internal/plot_helper.py:set_label", "preliz/internal/plot_helper.py:get_moments", "preliz/internal/plot_helper.py:side_legend", "preliz/distributions/distributions.py:Distribution.moments", "preliz/internal/plot_helper.py:plot_pp_samples", "preliz/internal/plot_helper.py:plot_pp_mean", "preliz/internal/plot_helper.py:plot_references"]}
{"id": "C98", "title": "Start values are admissible; interactive exploration shows the function asked for", "statement": "For every univariate family the start values (used by plot_interactive of a distribution without parameters, by the numerical moment matching and by the reading of model functions) lie strictly inside the bounds of its parameters, make a frozen distribution with exactly these parameters, and every slider can show them. plot_interactive draws pdf, cdf or ppf as asked for, with fixed, automatic or given limits; other kinds draw nothing. The sliders of Categorical change p, and nothing is drawn when they sum to more than one. Every distribution of the catalogue has start values; Truncated and Censored of every family can be explored; Dirichlet shows the ppf when asked to; Categorical can be explored when given by logit_p.", "quantifier": "every family, wrapper, state of the base distribution, kind, limits and slider values", "why_tests_cant": "tests run plot_interactive for a handful of distributions outside a notebook, where nothing is drawn", "anchors": ["preliz/internal/distribution_helper.py:init_vals", "preliz/distributions/distributions.py:Distribution.plot_interactive", "preliz/distributions/continuous_multivariate.py:Dirichlet.plot_interactive", "preliz/distributions/continuous_multivariate.py:MvNormal.plot_interactive", "preliz/internal/plot_helper.py:get_slider"]}
{"id": "C99", "title": "Quantiles of mixtures", "statement": "For a mixture with one non-negative weight per component, ppf of a level strictly between 0 and 1 always ends with a number, as close as the root finder's tolerance to a point between the lower and the upper quantile of the mixture law, for discrete and continuous components alike; for continuous components without flat parts and an exact root finder ppf is the quantile, isf the point beyond which the given probability lies, and the median splits the mass in halves. Level 0 gives the lowest end of all components (one less for discrete ones), level 1 the highest, other levels NaN. Level 1 gives the highest value that can occur, the result has the shape of the levels, and levels may be given as integers.", "quantifier": "every list of components and weights, every level, every root finder with the trusted contract", "why_tests_cant": "tests compare ppf of three mixtures with the cdf at a few levels given as floats", "anchors": ["preliz/distributions/mixture.py:Mixture.ppf", "preliz/distributions/mixture.py:Mixture.median", "preliz/internal/optimization.py:find_ppf", "preliz/internal/optimization.py:_ppf_single", "preliz/distributions/distributions.py:Distribution.isf"]}
{"id": "C100", "title": "Plots of multivariate distributions show the laws of the distribution", "statement": "The curve drawn for a coordinate is the law of that coordinate: for a Dirichlet of dimension two or more a Beta, for a multivariate normal a Normal. The function drawn on the triangle for a Dirichlet is its joint density, and an inaccurate gamma function changes no region. The rectangle drawn for a bivariate normal holds more probability than its outermost contour and is covered by a grid of step 0.01; the contours are drawn exactly if both standard deviations exceed 1/600 (below, an exception).", "quantifier": "every dimension, every positive concentration vector, every positive semidefinite covariance, any function in place of the log gamma function", "why_tests_cant": "a statement about laws: marginals of a joint law cannot be compared exactly by tests, and tests only check that plots are drawn", "anchors": ["preliz/internal/plot_helper_multivariate.py:plot_dirichlet", "preliz/internal/plot_helper_multivariate.py:plot_mvnormal", "preliz/internal/plot_helper_multivariate.py:DirichletOnSimplex.pdf", "preliz/internal/plot_helper_multivariate.py:joint_normal"]}
{"id": "C101", "title": "The reported mode of a modified distribution is its mode", "statement": "For truncated and censored discrete distributions, and hurdles over a base that can be zero, mode() is the smallest of the most probable values whenever at most 201 integers are searched, also if the support is infinite: the values left out are too improbable. For a continuous density that rises strictly to a peak and then falls strictly, mode() of a family without a formula, of a truncated and of a censored distribution is within the tolerance of the minimiser of the peak (moved into the interval searched).", "quantifier": "every base distribution, every pair of bounds, every minimiser with the stated contract", "why_tests_cant": "tests compare a few modes with scipy; the claim is about every law, and about the values that the grid leaves out", "anchors": ["preliz/distributions/truncated.py:Truncated.mode", "preliz/distributions/censored.py:Censored.mode", "preliz/distributions/hurdle.py:Hurdle.mode", "preliz/distributions/distributions.py:Continuous.mode", "preliz/internal/optimization.py:find_mode", "preliz/internal/optimization.py:find_discrete_mode"]}
{"id": "C102", "title": "Settings objects are independent and contexts restore in any order", "statement": "In every program that searches, copies and changes settings and creates, enters and leaves contexts in any order, an object (the settings, a result of find_all, a copy) is changed only by actions on that object. find_all returns exactly the settings whose key matches, copy all of them, with the values of that moment. Leaving a context gives the settings of the moment it was created. Iteration gives the keys in alphabetical order, and the settings always have three. A context asks for its settings in every with block it is used for, and after all contexts have been left the settings are the original ones.", "quantifier": "every program of such actions, every valid start, every interpreter environment", "why_tests_cant": "tests use one context at a time; the claim is about every interleaving of actions on several objects", "anchors": ["preliz/internal/rcparams.py:RcParams.find_all", "preliz/internal/rcparams.py:RcParams.copy", "preliz/internal/rcparams.py:RcParams.__iter__", "preliz/internal/rcparams.py:RcParams.__len__", "preliz/internal/rcparams.py:RcParams.__str__", "preliz/internal/rcparams.py:rc_context"]}
{"id": "C103", "title": "Multivariate objects report the moments of their law", "statement": "summary() of a specified MvNormal (by covariance or precision) or Dirichlet reports the means and standard deviations of the coordinates of its law, in every dimension; the attributes of an MvNormal are the mean, the covariance matrix of the law and its inverse. An object is only frozen with a regular positive semidefinite covariance, or positive concentrations, and unspecified objects answer no questions. In an interactive session any sequence of slider positions leaves the object built from the last positions and the matrix given at the start. xvals gives 1000 equally spaced values between the ends, for the full support of a Dirichlet inside (0, 1). mean() and xvals of a specified object always work.", "quantifier": "every dimension, mean vector, regular covariance or precision matrix, concentration vector, session and pair of ends", "why_tests_cant": "tests use two or three fixed vectors; the claim is about all of them and compares with integrals under the law", "anchors": ["preliz/distributions/distributions_multivariate.py:Multivariate.summary", "preliz/distributions/distributions_multivariate.py:Multivariate.mean", "preliz/distributions/distributions_multivariate.py:Multivariate.var", "preliz/distributions/distributions_multivariate.py:Multivariate.xvals", "preliz/distributions/continuous_multivariate.py:MvNormal", "preliz/distributions/continuous_multivariate.py:Dirichlet"]}
{"id": "C104", "title": "support and params_support are the documented ones", "statement": "For all 44 univariate families with scalar parameters and every history of construction, complete re-parametrisation and refits, the attribute support of a specified distribution holds the exact ends of the documented set of values at its current parameters; giving more arguments never widens the support. params_support has one interval for each parameter in every history; the interval admits only documented values of that parameter, and all of them up to the machine epsilon at the ends. info() shows the ends of the support exactly.", "quantifier": "every family, all arguments, all histories, all values", "why_tests_cant": "tests check the support of single distributions built once; the claim is about all parameters, refits in any order, and which values the optimisers may reach", "anchors": ["preliz/distributions/distributions.py:Distribution.support", "preliz/distributions/distributions.py:_format_support", "preliz/distributions/hypergeometric.py:HyperGeometric._update", "preliz/distributions/discrete_uniform.py:DiscreteUniform._parametrization", "preliz/distributions/truncatednormal.py:TruncatedNormal._parametrization", "preliz/distributions/betascaled.py:BetaScaled._update", "preliz/distributions/bernoulli.py:Bernoulli._parametrization", "preliz/distributions/beta.py:Beta._parametrization"]}
{"id": "C105", "title": "Plots of the elicitation functions appear on the axes asked for, in the colours asked for", "statement": "A call of maxent, quartile, mle, combine, match_moments, match_quantiles or dirichlet_mode that plots draws on the axes passed as ax (else the active ones, else new ones) and nowhere else, and returns these axes; the options in plot_kwargs apply to the curve; the points marking the bounds or quartiles have the colour of the curve.", "quantifier": "all distributions, states of the figures, axes, option dictionaries and settings", "why_tests_cant": "tests call each function once with default arguments and do not look at the axes or the colours", "anchors": ["preliz/unidimensional/maxent.py:maxent", "preliz/unidimensional/quartile.py:quartile", "preliz/unidimensional/mle.py:mle", "preliz/unidimensional/combine.py:combine", "preliz/unidimensional/matching.py:match_moments", "preliz/unidimensional/matching.py:match_quantiles", "preliz/multivariate/dirichlet_mode.py:dirichlet_mode", "preliz/internal/plot_helper.py:plot_pdfpmf"]}
{"id": "C106", "title": "The requested mean and standard deviation are the integrals of the documented density", "statement": "After fitting a mean and a positive standard deviation to Normal, Laplace, AsymmetricLaplace, Logistic, Gumbel, Moyal, Triangular (and, for positive means, Gamma, InverseGamma, LogNormal, Wald, Pareto), and after building Beta, Gamma or InverseGamma from mu and sigma, the documented density with the parameters of the object has total mass one and its first and centred second integral are the requested mean and the square of the requested standard deviation. For all 23 families with closed-form moments the mean and variance formulas used are the integrals of the density or the sums of the mass function.", "quantifier": "all admissible parameters, all requested means and standard deviations, all previous states of the object", "why_tests_cant": "tests compare sample moments or formulas of another library at a few parameter values, to a few digits", "anchors": ["preliz/distributions/normal.py:Normal._fit_moments", "preliz/distributions/gumbel.py:Gumbel._fit_moments", "preliz/distributions/moyal.py:Moyal._fit_moments", "preliz/distributions/logistic.py:Logistic._fit_moments", "preliz/distributions/wald.py:Wald._fit_moments", "preliz/distributions/pareto.py:Pareto._fit_moments", "preliz/distributions/studentt.py:StudentT._fit_moments", "preliz/distributions/uniform.py:Uniform._fit_moments", "preliz/distributions/beta.py:Beta._from_mu_sigma", "preliz/distributions/asymmetric_laplace.py:AsymmetricLaplace"]}
{"id": "C107", "title": "predictive_explorer labels the text boxes of Bambi models with the right bounds", "statement": "For a model function that builds a Bambi model, predictive_explorer finds every Prior(\"Name\", key=value, ...) in the source, and every parameter of the function that is the value of a keyword gets a text box whose starting value and displayed bounds are those of the parameter of that distribution the keyword names.", "quantifier": "every source, list of priors, keywords, values and white space, parameter and default value", "why_tests_cant": "sources are unbounded texts read by a backtracking regular expression; the only Bambi test is commented out and uses one prior with keywords in the usual order", "anchors": ["preliz/ppls/agnostic.py:match_preliz_dist", "preliz/ppls/agnostic.py:parse_function_for_pred_textboxes", "preliz/internal/plot_helper.py:get_textboxes", "preliz/predictive/predictive_explorer.py:predictive_explorer"]}
{"id": "C108", "title": "predictive_explorer opens with one text box per parameter and the engine of the model", "statement": "Let `predictive_explorer` be called on a function with at least one parameter. The function is called once with its defaults, and NaN for parameters without one; if that call raises, the error is passed on. Otherwise the engine is PyMC when the object returned has free or observed variables, Bambi when it has a formula, PreliZ otherwise, unless the caller asks for an engine, which is then used. When the explorer opens there is exactly one text box for each parameter, in the order of the signature, and a parameter whose default is a number starts at that number. Comments in the source have no influence.", "quantifier": "every function (source, parameters, defaults, result of the call), every requested engine, every choice of comments", "why_tests_cant": "The claim is about all sources with all comments and all signatures; the tests open two or three explorers and look at no engine other than the automatic one.", "anchors": ["preliz/predictive/predictive_explorer.py:64-71", "preliz/ppls/agnostic.py:108-125", "preliz/internal/plot_helper.py:391-419"]}
{"id": "C109", "title": "Bounds of a TruncatedNormal that are not given are infinite and stay so", "statement": "A TruncatedNormal reports the given bounds as its support and an infinite end where none was given, whatever the object was before. Elicitation functions (maxent, quartile, roulette fits) search over the missing ones of mu and sigma only: afterwards given values are unchanged, missing bounds are still infinite and all four parameters are reported. Matching moments before the search meets the requested mean and standard deviation exactly if and only if both bounds are infinite. A maximum likelihood fit uses nothing of the object it is given: it searches over all four parameters from the range and moments of the sample. The documented mean and variance are those of the documented density for all bounds, finite or not.", "quantifier": "all subsets of given parameters, all previous states of the object, all answers of the optimiser, all real mu, positive sigma and bounds lower < upper", "why_tests_cant": "Tests use a few parameter sets; that no answer of the optimiser moves a missing bound, and that the moment start is exact only without bounds, are statements about all of them.", "anchors": ["preliz/distributions/truncatednormal.py:TruncatedNormal", "preliz/internal/optimization.py:get_fixed_params", "preliz/internal/optimization.py:get_params", "preliz/internal/optimization.py:optimize_ml", "preliz/internal/optimization.py:update_bounds_beta_scaled"]}
{"id": "C110", "title": "The printed form of a distribution can be read back", "statement": "Printing a complete distribution gives `Name(parameter=value, ...)`: reading the text back as a call yields the name, the parameters in order, each value at most half a percent away from the real one and exactly it when it has up to three significant digits, infinities and arrays included; this holds for every family after any sequence of constructions, re-parametrisations and refits. An incomplete distribution prints as its name alone. The text splits at its only opening parenthesis into the name and the arguments, as the writers of PyMC and Bambi models need.", "quantifier": "all real parameter values, all lists of parameters with clean names, all families and histories of objects", "why_tests_cant": "Tests print a few distributions and compare with a literal string; that formatting to three digits and reading back stays within half a percent is a statement about all real numbers and all families.", "anchors": ["preliz/distributions/distributions.py:Distribution.__repr__", "preliz/distributions/distributions.py:Distribution._get_description", "preliz/distributions/distributions.py:Distribution._get_name", "preliz/ppls/pymc_io.py:write_pymc_string", "preliz/ppls/bambi_io.py:write_bambi_string"]}
{"id": "C111", "title": "The Gamma function and its logarithm are computed accurately for every positive argument", "statement": "For every positive argument the Gamma function used by the moment matching has a relative error below 5e-13, and the logarithm of the Gamma function used for drawing Dirichlet densities is within 6e-10 of the true one. Consequently the Weibull distribution obtained from a mean and a standard deviation has the requested mean up to a relative error below 6e-13 (coefficients of variation up to 2.7), and the Dirichlet density drawn on the triangle is the true one up to a relative error below 3e-9.", "quantifier": "all positive real arguments (no upper bound), all means, all deviations up to 2.7 times the mean, all positive concentration vectors", "why_tests_cant": "The only test compares the two functions with scipy on a short grid of arguments up to seven decimals; a coefficient wrong in its ninth digit, or an approximation that degrades for large arguments, would pass.", "anchors": ["preliz/internal/special.py:gamma", "preliz/internal/special.py:gammaln", "preliz/internal/special.py:garcia_approximation", "preliz/internal/plot_helper_multivariate.py:DirichletOnSimplex"]}
{"id": "C112", "title": "The HalfStudentT and ExGaussian laws built from moments", "statement": "After fitting a mean m and a standard deviation s, the law with the documented density of HalfStudentT (computed with the package's own Gamma function, including its overflow) has variance s^2, and the law with the documented density of ExGaussian has mean m and variance s^2. The documented means and variances are those of the documented densities.", "quantifier": "all positive deviations, all means, all degrees of freedom (given or not)", "why_tests_cant": "Tests compare moments at a handful of parameters with tolerances; that a relative error of 4e-12 holds for every number of degrees of freedom up to 279, and that the variance is too large from 300 on, needs bounds for Gamma quotients on the whole range.", "anchors": ["preliz/distributions/halfstudentt.py:165-184", "preliz/distributions/exgaussian.py:129-131", "preliz/internal/special.py:28-47"]}
{"id": "C113", "title": "The overviews of a distribution and of the catalogue show what they should", "statement": "In a notebook a distribution is shown as a page whose tags match; the texts on it are the printed form of the distribution, its kind, its support (each end readable to within 1e-10), for a complete distribution the mean and the standard deviation as far as they can be computed, and the parametrisations the class lists. The page exists whenever the distribution can be printed. The catalogue, as text and as a page, lists every distribution of the package exactly once under its kind with the right counts, and catalog.info works for every listed name.", "quantifier": "every distribution object, every text of its parts without angle brackets; every four lists of names", "why_tests_cant": "The page is one long string built from optional parts; tests compare a few substrings for one or two distributions and never parse the page.", "anchors": ["preliz/distributions/distributions.py:72-114", "preliz/distributions/distributions.py:1194-1207", "preliz/distributions/catalog.py:221-257", "preliz/distributions/catalog.py:319-345"]}
{"id": "C114", "title": "In the prior predictive assistant the framed panels are the chosen ones", "statement": "At every moment of a session in the window of ppa, the panels drawn with a coloured frame are exactly the panels that will be used by the next press of 'carry on': a click on a panel changes its frame, nothing else does; a press either is refused because a chosen panel is blank, and changes nothing, or ends without any frame. After a refused press, unchoosing the blank panels is enough to go on, with the other choices kept. Everything the window displays is shown in a panel.", "quantifier": "every session of clicks and presses, every sample and every neighbourhood order", "why_tests_cant": "Tests do not run the widgets; the property is about arbitrary sequences of events.", "anchors": ["preliz/predictive/ppa.py:66-144", "preliz/predictive/ppa.py:353-404", "preliz/internal/plot_helper.py:550-598"]}
{"id": "C115", "title": "The warnings of maxent, quartile and match_* show what they report", "statement": "Whenever maxent, quartile, match_moments or match_quantiles warn about a mismatch, the numbers can be read back from the text: maxent shows the requested and the computed mass, each within half a percent, quartile the three computed masses within five percent, and match_* one line for each entry that is off by more than the tolerance (and for no other), in the order of the request, with its name, the requested and the obtained value within half a percent. There is no text when nothing is off. The numbers shown as requested and as computed are different.", "quantifier": "every distribution, interval, mass, list of targets, list of obtained values and list of names", "why_tests_cant": "Tests check that a warning is emitted, not what it says; rounding can make two different numbers look alike for arbitrary values.", "anchors": ["preliz/unidimensional/maxent.py:158-164", "preliz/unidimensional/quartile.py:128-137", "preliz/unidimensional/matching.py:138-144", "preliz/unidimensional/matching.py:270-285"]}
{"id": "C116", "title": "What maxent and quartile return for distributions with a location and a scale", "statement": "For Normal, Laplace, Logistic, Cauchy and StudentT with given degrees of freedom: among the members of the family that give an interval a mass below one, exactly one has the largest entropy, and it is centred on the interval. If one completed run of the optimiser ends there, maxent returns a distribution with at least that entropy whose mass is within 1e-4 of the one asked for, and the optimum itself if the accepted runs meet the mass exactly. With the location given inside the interval there is one answer, with the scale given there are two mirror images (or one, or none). quartile returns the only member with the three quartiles if the median is halfway between the other two, and otherwise none has them. Two quantiles determine the member.", "quantifier": "all intervals, masses, quartiles, quantiles and members of the five families; all lists of optimiser results and all optimisers that find the minimum", "why_tests_cant": "A test elicits a few Normals and compares the mass; it cannot show that no other member would have been better, nor that skew quartiles are out of reach for a whole family.", "anchors": ["preliz/unidimensional/maxent.py:96-172", "preliz/internal/optimization.py:13-74", "preliz/internal/optimization.py:93-107", "preliz/unidimensional/quartile.py:91-150"]}
{"id": "C117", "title": "Elicitation for scale families on the half line: the attainable masses and what maxent and quartile return", "statement": "For Exponential, HalfNormal, HalfCauchy and HalfStudentT with given degrees of freedom (by their documented densities) the entropy grows with the scale and the mass of an interval depends only on the interval in units of the scale. On an interval that starts at zero every mass below one is that of exactly one distribution. On an interval that starts above zero there is a largest attainable mass, smaller than one and reached by one distribution; every smaller mass is that of exactly two distributions, the wider having the larger entropy. The largest mass is at scale (u-l)/log(u/l), sqrt((u^2-l^2)/(2 log(u/l))) and sqrt(l u) for Exponential, HalfNormal and HalfCauchy; it is (l/u)^(l/(u-l))(1-l/u) for Exponential and (4/pi) arctan(sqrt(u/l)) - 1 for HalfCauchy. maxent returns the widest of the distributions at which a completed run ended and that pass the check, the wider of the two solutions exactly if some completed run ended there, and, for a mass that is not attainable, that of the first completed run. Three values are the quartiles of a distribution of the family exactly if they stand in the ratios of the family (for Exponential: the third is twice the second); quartile with an optimiser that finds the minimum returns that distribution.", "quantifier": "all intervals, masses, scales, degrees of freedom, runs and quartiles", "why_tests_cant": "Whether an elicited mass is attainable depends on the ratio of the bounds; examples only try a few intervals and never the two solutions.", "anchors": ["preliz/unidimensional/maxent.py:96-172", "preliz/internal/optimization.py:13-74", "preliz/internal/optimization.py:93-107", "preliz/unidimensional/quartile.py:91-150", "preliz/distributions/exponential.py:16", "preliz/distributions/halfcauchy.py:17-18"]}
{"id": "C118", "title": "Poisson and Geometric: which means give a range of counts the mass, and which one maxent returns", "statement": "For Poisson and Geometric the entropy grows with the mean. A range of counts that starts at the smallest value (0 for Poisson, 1 for Geometric) has every mass below one for exactly one parameter. A range that starts above it has a largest mass, below one and reached by one parameter only (for Poisson by the mean that is the geometric mean of the counts of the range; for Geometric it is ((l-1)/u)^((l-1)/(u-l+1)) (1-(l-1)/u)), and every smaller mass belongs to exactly two parameters, of which the one with the larger mean has the larger entropy. maxent returns, of the distributions at which a completed run ended and that pass the check, the one with the largest mean; of two solutions the one with the larger mean exactly if some completed run ended there; and, for a mass that is not attainable, that of the first completed run.", "quantifier": "all ranges of counts, masses, parameters and runs", "why_tests_cant": "Examples try a few ranges; that a mass has two solutions, and which is returned, never shows in them.", "anchors": ["preliz/unidimensional/maxent.py:96-172", "preliz/internal/optimization.py:13-74", "preliz/internal/optimization.py:93-107", "preliz/distributions/poisson.py:16", "preliz/distributions/geometric.py:17"]}
{"id": "C119", "title": "maxent with a fixed statistic returns a distribution with that statistic", "statement": "maxent(dist, lower, upper, mass, fixed_stat=(name, value)) for Normal, Laplace, Logistic, Cauchy and StudentT (fixed degrees of freedom) and a statistic that is the location (mean, median or mode) returns the distribution of largest entropy among those with that location and that mass, whatever the units of the bounds, and tells the user when there is none.", "quantifier": "all intervals, masses, targets, scales, units and runs of the optimiser", "why_tests_cant": "The statistic is off only in some units of the bounds; tests use intervals of a few units around the target.", "anchors": ["preliz/internal/optimization.py:13-74", "preliz/unidimensional/maxent.py:96-172"]}
{"id": "C120", "title": "quartile for families with two parameters: which quartiles are attainable, and the answer", "statement": "For Uniform, Gumbel, LogNormal, LogLogistic, Weibull and Pareto three increasing values are the quartiles of some distribution of the family exactly if they satisfy one equation (Uniform: the median is halfway; LogNormal and LogLogistic: it is the geometric mean of the other two; Gumbel, Weibull, Pareto: a fixed ratio of differences, of logarithms for the last two); that distribution is unique and its parameters have a closed form. quartile returns it whenever its parameters are admissible; when the equation fails the distribution returned misses at least one of the three values.", "quantifier": "all parameters, all triples of values, every optimiser that finds the minimum, every start", "why_tests_cant": "Tests compare the fitted parameters with stored numbers for one triple per family, most of which no distribution of the family attains; no test says which triples are attainable.", "anchors": ["preliz/unidimensional/quartile.py:91-140", "preliz/internal/optimization.py:93-107", "preliz/distributions/loglogistic.py:16-25"]}
{"id": "C121", "title": "quartile cannot meet quartiles that lean to the left with a family that leans to the right", "statement": "Every Gamma, ChiSquared, InverseGamma, Wald, Moyal, Gumbel, LogNormal, LogLogistic, Pareto, Exponential, HalfNormal, HalfCauchy and HalfStudentT distribution has, at every distance from its median, less probability above the median than below; so its third quartile is further from the median than the first. quartile with values that lean the other way returns a distribution that misses at least one of them. In particular the two examples in the documentation of quartile (the Gamma with quartiles 3, 6, 8; the HalfStudentT with nu=7 and quartiles 2, 9, 12) ask for distributions that do not exist.", "quantifier": "all parameters of all these families, all distances from the median, all optimisers", "why_tests_cant": "A statement about all members of a family; tests fit one triple and compare the parameters with stored numbers.", "anchors": ["preliz/unidimensional/quartile.py:66-88", "preliz/unidimensional/quartile.py:119-125"]}
{"id": "C122", "title": "maxent turns the interval into the highest density interval of its answer", "statement": "For families with a location and a scale, symmetric or not (Normal, Laplace, Logistic, Cauchy, StudentT with given degrees of freedom, Gumbel, Moyal, and AsymmetricLaplace, SkewNormal and SkewStudentT with given asymmetry): among the distributions of the family that give [lower, upper] the requested mass, the one with the largest entropy is exactly the one under which no interval with that mass is shorter than [lower, upper], and exactly the one whose density is the same at lower and upper. For every interval and every mass strictly between 0 and 1 it exists and is unique. For AsymmetricLaplace with asymmetry kappa its location is (lower + kappa^2 upper) / (1 + kappa^2) and its scale kappa (upper - lower) / ((1 + kappa^2) (-log(1 - mass))). If one of the runs of the optimiser completed before the first failure ends there, maxent returns a distribution with at least its entropy that gives the interval the mass up to 1e-4, hence with a scale between that of this distribution and that of the one for a mass 1e-4 smaller; if moreover every completed run that passes the check gives the interval exactly the mass, the interval passed by the user is the shortest interval with this mass under the distribution returned.", "quantifier": "all families listed, all parameter values with a positive scale, all intervals, all masses in (0, 1), all lists of optimiser runs with a run at the optimum before the first failure", "why_tests_cant": "That no interval is shorter and that no distribution has more entropy quantify over continuous families; a test can only compare with a few.", "anchors": ["preliz/unidimensional/maxent.py:maxent", "preliz/internal/optimization.py:optimize_max_ent", "preliz/distributions/gumbel.py:Gumbel", "preliz/distributions/moyal.py:Moyal", "preliz/distributions/asymmetric_laplace.py:AsymmetricLaplace"]}
{"id": "C123", "title": "match_quantiles fits a least-squares line through the quantiles", "statement": "For families with a location and a scale (Normal, Laplace, Logistic, Cauchy, StudentT with given degrees of freedom, Gumbel, Moyal, and AsymmetricLaplace, SkewNormal and SkewStudentT with given asymmetry) and at least two different levels, and an optimiser that finds the minimum: the scale of the distribution match_quantiles returns is the slope of the least-squares line of the target quantiles on the quantiles of the standard distribution of the family (or the smallest allowed scale if the slope is below it), and its location is the average target minus the scale times the average standard quantile. Hence: the quantiles of a distribution of the same family give back that distribution, whichever levels are used; two levels are matched exactly; if the targets are rescaled and shifted, so is the answer; the slope is positive when the targets grow with the level and are not all equal; with the default levels and a symmetric family the location returned is the average of the three target quartiles (not their median) and the scale is their interquartile range over that of the standard distribution. For Exponential, HalfNormal, HalfCauchy and HalfStudentT with given degrees of freedom the scale returned is the slope of the least-squares line through the origin, if allowed.", "quantifier": "all families listed, all lists of levels in (0, 1) and of targets, all optimisers that find the minimum within the bounds, all starting points", "why_tests_cant": "A test compares a few numerical answers up to the tolerance of the optimiser; the identity with a regression line holds for all inputs.", "anchors": ["preliz/unidimensional/matching.py:match_quantiles", "preliz/internal/optimization.py:optimize_quantiles"]}
{"id": "C124", "title": "Which mean and variance a family can have, and what match_moments returns", "statement": "For Normal, Laplace, Logistic, Gumbel, Moyal, StudentT with given nu above 2, AsymmetricLaplace with given kappa, Uniform, Gamma, InverseGamma, LogNormal, Pareto, Wald and Beta: a mean m and a variance v belong to a distribution of the family exactly if v is positive (and m is positive for Gamma, InverseGamma, LogNormal, Pareto and Wald, and v is below m(1-m) for Beta), and then to one distribution only, whose parameters are written out. With an optimiser that finds the minimum, match_moments with the default moments returns that distribution when its parameters are within the bounds (a Uniform search may also end at bounds in the wrong order), gives back a distribution of the same family, and returns a distribution without these moments when there is none with them. Families with one parameter cannot follow both targets, and match_moments does not keep the mean: Poisson returns (m+v)/2 and ChiSquared (m+2v)/5 (or the smallest value allowed), and for Exponential, HalfNormal and HalfStudentT with given nu above 2 the scale returned is the only positive root of a cubic equation; it gives the mean exactly if it gives the variance. For every family with closed-form moments the mean and the variance of the documented law exist exactly for the parameters stated (alpha above 2 for InverseGamma and Pareto, nu above 2 for StudentT).", "quantifier": "all families listed, all parameters, all targets, all optimisers that find the minimum within the bounds, all starting points", "why_tests_cant": "A test compares a few numerical answers up to the tolerance of the optimiser; that a pair of targets cannot be met, or that a law has no variance, cannot be tested at all.", "anchors": ["preliz/unidimensional/matching.py:match_moments", "preliz/internal/optimization.py:optimize_moments"]}
{"id": "C125", "title": "maxent for Uniform and Triangular fixes the length of the support, not its position", "statement": "Among the Uniform distributions that give [l, u] the mass p, those with the largest entropy are exactly the ones whose support contains [l, u] and has length (u-l)/p; their lower ends are all numbers of an interval of length (u-l)(1/p-1). Among the Triangular distributions they are exactly the ones whose density is the fraction sqrt(1-p) of its maximum at both ends of [l, u]; the support has length (u-l)/(1-sqrt(1-p)) and every number in [l, u] is the mode of one of them. If the runs completed by maxent end at proper distributions and one of them at one of these, the distribution returned has the mass up to 1e-4 and a support whose length lies between the optimal one for p and the optimal one for p-1e-4; if the runs that pass the check have exactly the mass, it is one of these, and each of them is returned if the runs end there. For Uniform with a given lower end not above l there is a distribution with the mass exactly if p is at most (u-l)/(u-lower), and then exactly one with the largest entropy.", "quantifier": "all intervals, all masses above 0 and at most 1, all candidate parameters, all sequences of optimisation runs", "why_tests_cant": "A test sees the one answer the optimiser happened to stop at; that equally good answers with other means exist, and that there is no better one, is not visible in any run.", "anchors": ["preliz/unidimensional/maxent.py:maxent", "preliz/internal/optimization.py:optimize_max_ent", "preliz/distributions/uniform.py:Uniform", "preliz/distributions/triangular.py:Triangular"]}
{"id": "C126", "title": "Elicitation of a truncated, censored or hurdle distribution keeps what was given", "statement": "When maxent, quartile, match_moments or match_quantiles returns for a Truncated, Censored or Hurdle distribution of which some parameters were given, then, whatever points were tried on the way, the parameters given have the values given, the others have in their order the values found, the bounds or the proportion are those that were given, the base distribution has exactly these parameters, and the distribution is complete. Fails where: values given to the base itself are not seen if the base does not list them before it is complete; a Hurdle without a proportion ends in a TypeError; parameters given in another parametrisation than the base's current one end in an AttributeError; fixed_params with numbers only is refused, and fixed_params that do not repeat the bounds remove them; a censored distribution reports the bounds moved into the support of the base; a truncated Uniform has nothing free; a Mixture always ends in an AttributeError.", "quantifier": "all three modifiers, all base families and parametrisations whose parameter names differ from the modifier's, all patterns of given values, all bounds, all sequences of points tried and points found", "why_tests_cant": "The values pass through two parametrisation layers and a search whose intermediate points depend on the numerical library; tests look at one interval and compare rounded parameters, and do not look at what was given.", "anchors": ["preliz/distributions/truncated.py:Truncated", "preliz/distributions/censored.py:Censored", "preliz/distributions/hurdle.py:Hurdle", "preliz/distributions/mixture.py:Mixture", "preliz/internal/optimization.py:get_fixed_params", "preliz/internal/optimization.py:optimize_max_ent", "preliz/unidimensional/maxent.py:maxent", "preliz/unidimensional/quartile.py:quartile"]}
{"id": "C127", "title": "maxent for DiscreteUniform: which masses can be had, and what is returned otherwise", "statement": "A DiscreteUniform distribution gives the integers from l to u a mass that is a quotient of whole numbers. The mass c/d in lowest terms is had by some DiscreteUniform exactly if there are at least c integers from l to u; those with the largest entropy then have d*floor(n/c) values, n being the number of these integers. If d is at most 100 (as for every whole percentage) and there are fewer than c integers, no DiscreteUniform comes within 1e-4 of the mass. If the runs completed by maxent end at proper distributions and report their entropies, maxent returns the distribution of one of them with the ends rounded outwards: if one of them has the mass up to 1e-4 the one returned has it too and has the most values of those; otherwise it is the first. So with the default mass 0.89 and fewer than 89 integers in the interval, maxent returns the first run and its mass is off by at least 1e-4.", "quantifier": "all whole bounds l <= u, all fractions in lowest terms, all pairs of ends, all sequences of optimisation runs", "why_tests_cant": "That no choice of the two ends passes the check is a statement about infinitely many distributions; a test sees one answer and no sign that the search was bound to fail.", "anchors": ["preliz/unidimensional/maxent.py:maxent", "preliz/internal/optimization.py:optimize_max_ent", "preliz/distributions/discrete_uniform.py:DiscreteUniform"]}
{"id": "C128", "title": "moments and lmoments report the figures asked for", "statement": "moments(types) returns exactly if every letter is one of m, v, d, s, k and the distribution has that moment; it then gives one figure for each letter in the order of the letters, and for every family with scalar parameters each figure is what the numerical library returns for that moment and the parameters of the object. The same holds for lmoments and the digits 1 to 4. Every distribution has all of them, and the standard deviation can be asked for with d as documented.", "quantifier": "all letter sequences, all univariate families and modified distributions, all parameters", "why_tests_cant": "Tests ask for the default letters on a list of families chosen because they work.", "anchors": ["preliz/distributions/distributions.py:Distribution.moments", "preliz/distributions/distributions.py:Distribution.lmoments", "preliz/distributions/hurdle.py:Hurdle", "preliz/distributions/discrete_weibull.py:DiscreteWeibull"]}
{"id": "C129", "title": "maxent for Pareto: the only answer, and the values it leaves out", "statement": "For 0 < l < u and 0 < p < 1 exactly one of the Pareto distributions that give [l, u] the mass p has the largest entropy. With c = -log(1-p) its smallest value is u*exp(-t) and its exponent c/t, where t is log(u/l) if c <= 1 and the smaller of log(u/l) and c/(c-1) otherwise. So if p exceeds 1-1/e and u/l exceeds exp(c/(c-1)), the smallest value lies inside the interval: the distribution returned gives no probability to the values from l up to it, and does not depend on l. No Pareto distribution gives a bounded interval the mass one. For an interval that starts at zero there is exactly one best distribution if p exceeds 1-1/e, and otherwise none, the entropies being unbounded. If the runs completed by maxent end at proper distributions and report their entropies, and one of them ends at the best distribution, the one returned has the mass up to 1e-4 and at least that entropy, and is the best if the runs that pass the check have exactly the mass.", "quantifier": "all intervals of positive numbers, all masses between 0 and 1, all exponents and smallest values, all sequences of optimisation runs", "why_tests_cant": "A test sees one answer with the right mass; that it ignores the lower end of the interval, and that no other distribution is better, is not visible in it.", "anchors": ["preliz/unidimensional/maxent.py:maxent", "preliz/internal/optimization.py:optimize_max_ent", "preliz/distributions/pareto.py:Pareto"]}
{"id": "C130", "title": "maxent with the location or the scale of a symmetric family given: attainable masses and which answer is returned", "statement": "For Normal, Laplace, Logistic, Cauchy and StudentT with given degrees of freedom and a given location: with the location at one end of the interval every mass below one half is that of exactly one scale and no larger mass is attainable; with the location outside the interval there is a largest attainable mass, below one half and reached by one scale, and every smaller mass is that of exactly two scales, the wider having the larger entropy. For a location m below the interval [l, u] the largest mass is at scale sqrt(((u-m)^2-(l-m)^2)/(2 log((u-m)/(l-m)))), (u-l)/log((u-m)/(l-m)) and sqrt((l-m)(u-m)) for Normal, Laplace and Cauchy. maxent keeps the given location and returns the widest of the completed runs that pass the check, so the wider solution exactly if a completed run ended there, and the first run if none passes. With a given scale all candidates have the same entropy: maxent returns the first completed run that passes the check, and of the two mirror images that give the mass exactly it returns the one at which the first run ended.", "quantifier": "all intervals, masses, locations, scales, degrees of freedom and lists of runs", "why_tests_cant": "A test fixes one parameter of one distribution and checks the mass; it sees neither the second solution nor that the mass asked for is out of reach.", "anchors": ["preliz/unidimensional/maxent.py:96-172", "preliz/internal/optimization.py:13-74", "preliz/distributions/normal.py:78", "preliz/distributions/logistic.py:55"]}
{"id": "C131", "title": "maxent for LogNormal and LogLogistic: the distribution sought, and the masses for which there is none", "statement": "By the documented densities of LogNormal and LogLogistic: for an interval of positive numbers and a mass strictly between 0 and 1 exactly one distribution of the class has the largest entropy among those that give the interval that mass, and its median lies above the geometric mean of the two ends. Multiplying both ends by a number multiplies the median by it and leaves the second parameter as it is. For an interval from 0 to u and a mass above one half the best distribution has the median u/e whatever the mass (LogLogistic: alpha = u/e, beta = log(mass/(1-mass))); for a mass of one half or less the entropies of the distributions with that mass are unbounded, so there is none. Every bounded interval has mass below 1. maxent, if one of the runs completed before the first failure ends at the best distribution, returns a distribution with the mass up to 1e-4 and at least that entropy, and the best one if the runs that pass the check have exactly the mass.", "quantifier": "all intervals of non-negative numbers, masses, parameters and lists of runs", "why_tests_cant": "A test compares the parameters found for one interval with stored numbers; it sees neither uniqueness nor the masses for which the optimiser drifts off.", "anchors": ["preliz/unidimensional/maxent.py:96-172", "preliz/internal/optimization.py:13-74", "preliz/distributions/lognormal.py:24", "preliz/distributions/loglogistic.py:20"]}
{"id": "C132", "title": "SkewNormal and SkewStudentT are what their documentation says", "statement": "By the documented density SkewNormal(mu, sigma, alpha) is a probability distribution with the documented mean and variance; with alpha=0 it is Normal(mu, sigma), changing the sign of alpha mirrors it at mu, for alpha going to infinity the density goes to that of a half-normal distribution starting at mu at every point except mu; for a given alpha every mean and every standard deviation belong to exactly one (mu, sigma). By the documented density SkewStudentT(mu, sigma, a, b) is a probability distribution, has the documented mean if a and b exceed one half, and a variance, which is given, if they exceed one; with a=b it is StudentT with 2a degrees of freedom; it leans to the right (values above mu are more likely than those as far below, and the mean exceeds mu) exactly if a>b, and exchanging a and b mirrors it. Both densities have exactly one mode. The documented remark that sigma approaches the standard deviation as a and b approach each other is wrong: with a=b the variance is sigma^2 a/(a-1), which approaches sigma^2 only as a grows.", "quantifier": "all parameters allowed and all real numbers", "why_tests_cant": "Tests compare pdf, moments and limits at a few parameters with another numerical library.", "anchors": ["preliz/distributions/skewnormal.py:20-67", "preliz/distributions/skew_studentt.py:17-70"]}
{"id": "C133", "title": "maxent with the location or the scale given for families with one hump: attainable masses and which answer is returned", "statement": "For Gumbel, Moyal, AsymmetricLaplace with given kappa or q, SkewNormal with given alpha, SkewStudentT with given a and b, and Normal, Laplace, Logistic, Cauchy and StudentT with given nu. With a given location inside the interval every mass is that of exactly one scale. With the location at the lower (upper) end exactly the masses below the probability of the values above (below) the location are attainable, each by exactly one scale; for AsymmetricLaplace the probability below the location is kappa^2/(1+kappa^2). With the location outside there is a largest attainable mass; for each attainable mass there is a largest scale, which has strictly more entropy than the others, and unless the mass is the largest there is another scale. maxent keeps the location and returns the largest scale among the completed runs that pass the check, hence the largest scale with the mass if a run ended there. With a given scale there is one location with the largest mass, at which the interval is a shortest one of its mass; every smaller mass is that of exactly two locations with the same entropy, and maxent returns the first completed run that passes the check, or the first run.", "quantifier": "all intervals, masses, locations, scales, shape parameters and lists of runs", "why_tests_cant": "A test fixes one parameter of one distribution and checks the mass; for asymmetric families it sees neither the second solution nor how much mass is out of reach.", "anchors": ["preliz/unidimensional/maxent.py:96-172", "preliz/internal/optimization.py:13-74", "preliz/distributions/gumbel.py:60", "preliz/distributions/moyal.py:55", "preliz/distributions/asymmetric_laplace.py:75", "preliz/distributions/skewnormal.py:78", "preliz/distributions/skew_studentt.py:90"]}
{"id": "C134", "title": "Count distributions: the documented laws, and which mean and variance can be fitted", "statement": "Binomial, NegativeBinomial, BetaBinomial, HyperGeometric, DiscreteWeibull and the zero-inflated Poisson, Binomial and NegativeBinomial: the documented mass function is nonnegative, has total mass one and the documented mean and variance (HyperGeometric with N = 1 excepted, where the documented formula divides zero by zero and the variance is zero). NegativeBinomial is the documented Gamma mixture of Poissons, BetaBinomial the documented Beta mixture of Binomials, and the two documented parametrisations of NegativeBinomial give the same mass function. A mean and a variance belong to a NegativeBinomial or ZeroInflatedPoisson exactly when 0 < mean < variance, to a ZeroInflatedNegativeBinomial with given alpha exactly when mean + mean^2/alpha < variance, to a BetaBinomial or ZeroInflatedBinomial with n >= 2 given exactly when the variance is between mean*(n-mean)/n and mean*(n-mean); in each case one distribution has them, with parameters written out. With n = 1 BetaBinomial only depends on alpha/beta. A Binomial with both parameters free has them only if mean^2/(mean-variance) is a whole number. With an optimiser that finds the minimum, match_moments and the moment fit return that distribution when it is within the bounds; otherwise, when the pair is out of reach, match_moments returns a distribution that does not have it.", "quantifier": "all parameters, all means and variances, all optimisers that find the minimum", "why_tests_cant": "A test fits to the moments of a distribution of the family; it does not show which pairs can be had nor that the answer is unique.", "anchors": ["preliz/distributions/binomial.py:15-33", "preliz/distributions/negativebinomial.py:18-60", "preliz/distributions/betabinomial.py:15-45", "preliz/distributions/hypergeometric.py:15-45", "preliz/distributions/discrete_weibull.py:15-45", "preliz/distributions/zi_poisson.py:12-40", "preliz/distributions/zi_binomial.py:10-40", "preliz/distributions/zi_negativebinomial.py:15-60", "preliz/internal/optimization.py:77-140"]}
{"id": "C135", "title": "maxent for positive families with one parameter given", "statement": "Weibull, Gamma or InverseGamma with alpha given, LogNormal with sigma given, LogLogistic with beta given: every interval from zero has every mass between 0 and 1 under exactly one distribution; an interval from l > 0 to u has a largest attainable mass, below one and reached by one distribution, written out, and every smaller mass under exactly two, of which the wider has the larger entropy. LogNormal with mu or LogLogistic with alpha given: if the median is inside the interval one distribution has the mass, if it is at an end only masses below one half are attained, if it is outside there is a largest mass below one half and two distributions for smaller ones; from zero only masses on one side of one half are attained. Pareto with alpha given: the largest mass is 1 - (l/u)^alpha, every smaller one belongs to exactly two distributions, and the one of larger entropy starts inside the interval and gives its lower part no probability. Pareto with m given: one alpha if m is inside the interval, two below a largest mass if m is below it, none above. maxent keeps the parameter given and returns, among the completed runs that pass the check of the mass, a widest one, and the first run if none passes.", "quantifier": "all values of the given parameter, all intervals, all masses, all runs of the optimiser", "why_tests_cant": "A test elicits one interval and one mass with one starting point; it does not show that two answers exist, or that none does.", "anchors": ["preliz/unidimensional/maxent.py:96-172", "preliz/internal/optimization.py:13-74", "preliz/distributions/weibull.py:15-60", "preliz/distributions/gamma.py:15-60", "preliz/distributions/inversegamma.py:15-60", "preliz/distributions/lognormal.py:15-60", "preliz/distributions/loglogistic.py:15-60", "preliz/distributions/pareto.py:15-60"]}
{"id": "C136", "title": "The five runs of maxent: where they start, and that they do not disturb each other", "statement": "maxent starts the minimiser at the moment-matched values of the free parameters and at 0.75, 0.9, 1.1 and 1.25 times these, the latter four put into the bounds of the parameters. Entropy and mass are evaluated on one object that every evaluation changes; nevertheless each run is a function of its starting point alone, and maxent gives what choosing among the five runs, each on its own, would give: the run used is one of the five, all earlier ones were completed, and the distribution is left at its end. If the first run raises, whatever the exception, maxent raises an IndexError; an exception while the ends are checked is raised as it is. A free parameter whose current value is zero starts at zero in all five runs; if all are zero the five runs are one. With a minimiser that reports the objective at its end, the distribution returned has the largest entropy among the ends of completed runs that miss the mass by less than 1e-4, if there is one.", "quantifier": "all families, all histories of the object, all minimisers (any sequence of evaluations, failing or not), all starting values and bounds", "why_tests_cant": "A test sees the result of one minimiser; it does not show that a run leaves nothing behind for the next, or what becomes of an exception inside it.", "anchors": ["preliz/internal/optimization.py:13-74", "preliz/internal/optimization.py:77-90", "preliz/unidimensional/maxent.py:139-156"]}
{"id": "C137", "title": "What ppe learns about the variables of a model, and when the priors it writes are complete", "statement": "ppe records for every free variable, in the order of the model and under the variable's name, its shape, size and back-transformation and exactly the free variables needed to compute its parameters (directly or through other variables), each once; the optimisation starts at the initial points put one after the other; each variable gets its own columns of the result, back-transformed. The text declares exactly the variables without random parents, each once and in order, if and only if no variable depends on one that has random parents itself or was made after one that has. Without an observed variable there is an IndexError.", "quantifier": "every model graph (any depth and sharing), all names, shapes, transformations and results of the optimisation", "why_tests_cant": "Tests use one model with two independent variables; the properties concern all graphs and all orders of creation.", "anchors": ["preliz/ppls/pymc_io.py:retrieve_variable_info", "preliz/ppls/pymc_io.py:non_constant_parents", "preliz/ppls/pymc_io.py:unravel_projection", "preliz/ppls/pymc_io.py:get_initial_guess", "preliz/predictive/ppe.py:69-104"]}
{"id": "C138", "title": "Kumaraswamy, LogLogistic, LogitNormal, VonMises: documented laws and moment fits", "statement": "The density documented for each of Kumaraswamy, LogLogistic, LogitNormal and VonMises is a probability density and has the documented mean and variance (LogLogistic: where they exist; VonMises: mean direction and circular variance; LogitNormal: the mass below x is that of a normal law below the logit of x). Every positive mean and standard deviation belong to exactly one LogLogistic, and initialising a LogLogistic by mean and standard deviation gives it. Initialising a LogitNormal by mean and standard deviation gives a distribution with that mean and standard deviation.", "quantifier": "all positive parameters (VonMises: all mu and kappa); all means and standard deviations; every optimiser that finds a minimum", "why_tests_cant": "Tests compare a handful of parameter values with scipy to a few digits; that a mean does not exist, that a pair of moments has exactly one solution, or on which side a fit always errs cannot be sampled.", "anchors": ["preliz/distributions/kumaraswamy.py:16-38", "preliz/distributions/loglogistic.py:20-40", "preliz/distributions/loglogistic.py:118-119", "preliz/distributions/logitnormal.py:24-46", "preliz/distributions/logitnormal.py:149-152", "preliz/distributions/vonmises.py:18-40", "preliz/distributions/vonmises.py:119-121"]}
{"id": "C139", "title": "mle: for which samples a most likely distribution exists, and that it is the only one", "statement": "For Gumbel, Logistic, Moyal, Weibull, LogLogistic, Gamma, InverseGamma, Beta, Wald and Pareto, a nonempty sample of values the family can take has a most likely distribution exactly if it contains two different values, and then only one; for constant samples the likelihood has no upper bound. Every sample of positive numbers has exactly one most likely ChiSquared. A HalfCauchy exists exactly if fewer than half of the values are zero, a Cauchy if no value makes up half of the sample. Every sample has a most likely StudentT. With an optimiser that finds the minimum within the bounds, mle leaves the object with the most likely parameters.", "quantifier": "all samples of any length; all parameters; every optimiser that finds the minimum of the objective within the bounds", "why_tests_cant": "Tests fit a few samples drawn from the family itself and compare with the true parameters. That no other parameters are as likely, that a maximum exists at all, or that it never exists for StudentT are statements about all parameter values.", "anchors": ["preliz/internal/optimization.py:239-251", "preliz/distributions/gumbel.py:127-128", "preliz/distributions/gamma.py:174-175", "preliz/distributions/beta.py:148-151", "preliz/distributions/weibull.py:126-129", "preliz/distributions/studentt.py:177-178", "preliz/distributions/cauchy.py:126-127"]}
{"id": "C140", "title": "mle for counts and for families with free bounds: which samples have a most likely distribution", "statement": "A nonempty sample of counts has a most likely NegativeBinomial exactly if its variance exceeds its mean; each such distribution has the mean of the sample. It has a most likely ZeroInflatedPoisson exactly if it has more zeros than the Poisson distribution with its mean; there is only one, with the mean of the sample and its share of zeros. A sample has a most likely AsymmetricLaplace exactly if the sum of the square roots of the total distances upwards and downwards is smallest at a value that is neither the smallest nor the largest. No sample has a most likely BetaScaled, and none whose values are two neighbouring counts a most likely DiscreteWeibull. With an optimiser that only returns minima within the bounds, mle leaves the object with most likely parameters, and does not return for a NegativeBinomial and a sample whose variance does not exceed its mean.", "quantifier": "all samples of any length; all parameters; every optimiser that only returns minima of the objective within the bounds", "why_tests_cant": "For a sample without a most likely distribution the optimiser still stops somewhere and the result looks like any other; whether a maximum exists is a statement about all parameter values, and tests only fit samples drawn from the family.", "anchors": ["preliz/internal/optimization.py:239-251", "preliz/distributions/negativebinomial.py:173-177", "preliz/distributions/zi_poisson.py:69-73", "preliz/distributions/asymmetric_laplace.py:162-163", "preliz/distributions/betascaled.py:108-110", "preliz/distributions/discrete_weibull.py:109-113"]}
{"id": "C141", "title": "mle for NegativeBinomial, DiscreteWeibull and Kumaraswamy: existence and uniqueness", "statement": "A nonempty sample of counts whose variance exceeds its mean has exactly one most likely NegativeBinomial, and no other sample has any. A nonempty sample of counts has a most likely DiscreteWeibull exactly if two of its values differ by two or more. A nonempty sample from the open unit interval has a most likely Kumaraswamy exactly if it has two different values; there is only one, and its b is the number of observations divided by the sum of -log(1 - x^a). For a constant sample the Kumaraswamy likelihood is unbounded. With an optimiser that only returns minima within the bounds, mle leaves the object with exactly these parameters, and does not return for a Kumaraswamy and a constant sample.", "quantifier": "all samples of any length; all parameters; every optimiser that only returns minima of the objective within the bounds", "why_tests_cant": "Whether a likelihood has one maximum, several or none is a statement about all parameter values; a test compares the result of one optimiser run with the parameters the sample was drawn from.", "anchors": ["preliz/internal/optimization.py:239-251", "preliz/distributions/negativebinomial.py:173-177", "preliz/distributions/discrete_weibull.py:109-113", "preliz/distributions/kumaraswamy.py:120-121"]}
{"id": "C142", "title": "mle for TruncatedNormal, SkewNormal and SkewStudentT: which samples have a most likely distribution", "statement": "A most likely TruncatedNormal for a sample with at least two different values has the smallest and the largest value as its bounds, is unique, and exists exactly if the variance of the sample is smaller than that of the exponential (or uniform) law on the range of the sample with the same mean; it never exists for a sample of only two different values, and then any TruncatedNormal is beaten by one with as large a sigma as one likes. For a constant sample the likelihood is unbounded. The location of a most likely SkewNormal lies strictly inside the range of the sample; two different values have none, and for a constant sample the likelihood is unbounded. SkewStudentT distributions make every nonempty sample as likely as one likes. With an optimiser that only returns minima within the bounds, mle leaves a TruncatedNormal with exactly the most likely parameters if there are any, or with bounds that exclude an observation; if there are none only the latter is possible; for two different values it does not return a SkewNormal.", "quantifier": "all samples of any length; all parameters; every optimiser that only returns minima of the objective within the bounds", "why_tests_cant": "Whether the likelihood has a maximum is a statement about all parameter values. A test fits a large sample drawn from the distribution itself, for which a maximum exists with high probability, and never sees that a spread-out sample drives sigma to infinity.", "anchors": ["preliz/distributions/truncatednormal.py:142-148", "preliz/distributions/skewnormal.py:158-166", "preliz/distributions/skew_studentt.py:156-160", "preliz/internal/optimization.py:239-251"]}
{"id": "C143", "title": "mle for Rice: existence of a most likely distribution and the mean square", "statement": "If nu = 0 is admitted, every sample of positive values of which two differ has a most likely Rice distribution. Every most likely Rice distribution has nu^2 + 2 sigma^2, its second moment, equal to the mean square of the sample. If the mean fourth power of the sample is less than twice its squared mean square, nu is positive and there is a most likely distribution within the documented domain. For a constant sample the likelihood is unbounded. With an optimiser that only returns minima within the bounds, mle leaves the object with a most likely distribution, hence with the mean square of the sample, whichever parametrisation the object was created with.", "quantifier": "all samples of positive values of any length; all parameters; every optimiser that only returns minima of the objective within the bounds; both parametrisations", "why_tests_cant": "A test compares fitted with true parameters up to a tolerance for one large sample; it cannot tell a maximum from a point near one, and the equality of the mean squares is not what the code computes.", "anchors": ["preliz/distributions/rice.py:152-162", "preliz/internal/optimization.py:239-251"]}
{"id": "C144", "title": "Shape of a sample with and without a size", "statement": "For every distribution, however Truncated, Censored, Hurdle and Mixture are nested, asking rvs for n > 0 values gives an array of n values. Any other size is respected exactly if the distribution is not a Mixture or a Mixture censored any number of times; those return a flat array, and raise ValueError exactly if the size contains a zero. Called without a size, rvs returns a single number, except for Rice and for (censored) Mixtures, which return an array with one entry. Rice is the only distribution for which leaving out the size differs from size=None; wrapped in Truncated, Censored or Hurdle it behaves as the others.", "quantifier": "all distributions built from all families by any nesting of the four wrapping classes; all sizes (None, numbers, tuples)", "why_tests_cant": "The tests draw large one-dimensional samples; the default of size is not compared between the families and nested distributions are not sampled.", "anchors": ["preliz/distributions/rice.py:151-153", "preliz/distributions/mixture.py:136-144", "preliz/distributions/censored.py:169-170", "preliz/distributions/truncated.py:120-122", "preliz/distributions/hurdle.py:109-111"]}
{"id": "C145", "title": "Modifiers around modified distributions keep what each was given", "statement": "Truncated, Censored and Hurdle can be put around distributions that are modified already. Every object of the nest keeps its bounds, its psi, its parameters, and is complete, provided that no two of the innermost distribution and the modifiers inside the outermost one have a parameter name in common (lower, upper, psi). Otherwise values are lost without an error: of two equally named modifiers in a row the inner one gets infinite bounds or no psi as soon as a third modifier is put around them; an innermost distribution with parameters lower, upper or psi loses those the modifier next to it has too as soon as a second modifier is put around both; after repeated names values can be read under the wrong name. A complete Mixture cannot be wrapped at all: TypeError. A nest around an incomplete distribution stays incomplete.", "quantifier": "all families as innermost distributions, all values, all nestings of any depth for what is kept; all values for what is lost", "why_tests_cant": "The tests put one modifier around a family. Nests of two look right; the loss shows up with the third object and leaves an object that samples and plots without complaint.", "anchors": ["preliz/distributions/truncated.py:48-80", "preliz/distributions/censored.py:51-84", "preliz/distributions/hurdle.py:55-75", "preliz/distributions/mixture.py:48-75"]}
{"id": "C146", "title": "Nested Truncated and Censored have the law of the intersection of their intervals", "statement": "A Truncated around a Truncated has the mass function or density, cdf and quantiles of the distribution conditioned on the intersection of the two intervals, in either order; a Censored around a Censored is one Censored to the intersection; a Censored around a Truncated is the clipped variable of the truncated distribution; and a Truncated around a Censored is the censored distribution conditioned on the interval.", "quantifier": "all distributions meeting their contract, all bounds (finite or infinite, whole lower bounds for discrete ones), all nesting depths of truncations, all points and all probability levels in (0, 1]", "why_tests_cant": "tests try few combinations of modifiers, and only compare at sampled points; the errors occur at single points (shared bounds) or only from three levels on", "anchors": ["preliz/distributions/truncated.py:48-80", "preliz/distributions/truncated.py:124-145", "preliz/distributions/truncated.py:160-163", "preliz/distributions/censored.py:51-84", "preliz/distributions/censored.py:172-194"]}
{"id": "C147", "title": "Hurdle and Mixture of modified distributions", "statement": "A Hurdle around a Hurdle is a Hurdle with the outer probability; a Hurdle around a Truncated has the law of the hurdle of the truncated distribution; a Truncated around a Hurdle has the law of the hurdle conditioned on the interval; a Mixture of Mixtures is one Mixture with the products of the weights; a Mixture of Truncated distributions has the weighted sum of their cdfs; and in all of them the density is the exponential of the log-density.", "quantifier": "all distributions meeting their contract (for Hurdle around Hurdle and for Mixtures, all objects with the functions of a distribution), all probabilities, weights, bounds, points and levels", "why_tests_cant": "the sums that exceed one are sums over infinitely many points, and tests of modifiers use one modifier around one family", "anchors": ["preliz/distributions/hurdle.py:113-162", "preliz/distributions/mixture.py:77-94", "preliz/distributions/truncated.py:127-145"]}
{"id": "C148", "title": "Samples of nested modifiers", "statement": "Drawing n values from a nest of modified distributions gives n independent values: for truncations around each other they follow the distribution conditioned on the intersection of the intervals; for Censored around Truncated they follow the clipped variable of the truncated distribution; for a Truncated around a Censored or around a Hurdle they follow the law of the object inside conditioned on the interval.", "quantifier": "all base distributions, all bounds, any depth of truncations, all sample sizes, all hurdle weights", "why_tests_cant": "A test of a sample can only compare moments of one draw with a tolerance, for one base family; that the joint law is the product law for every size is out of reach.", "anchors": ["preliz/distributions/truncated.py:120-122", "preliz/distributions/hurdle.py:109-111", "preliz/distributions/censored.py:169-170", "preliz/distributions/truncated.py:136-147"]}
{"id": "C149", "title": "Modifiers around mixtures", "statement": "A Truncated around a Mixture follows the law of the mixture conditioned on the interval, and its density and cdf are those of the Mixture of the truncated components, each weighted with its weight times its probability of the interval. A Censored around a Mixture (bounds inside all supports) equals the Mixture of the censored components with the same weights. A Hurdle around a Mixture equals the Mixture of the hurdled components, weighted with weight times probability above machine precision.", "quantifier": "all numbers of components, all components (also modified ones), all weights, bounds, psi and points", "why_tests_cant": "The reweighting has to hold at every point for every choice of components and weights; a test compares a few values of one example and cannot tell a wrong reweighting from numerical error in the tails.", "anchors": ["preliz/distributions/mixture.py:65-94", "preliz/distributions/truncated.py:124-145", "preliz/distributions/censored.py:172-200", "preliz/distributions/hurdle.py:113-162"]}
{"id": "C150", "title": "maxent for VonMises: mode in the middle, or opposite to it", "statement": "For an interval [l, u] inside [-pi, pi]: the entropy of a VonMises distribution does not depend on mu and falls strictly with kappa; at a given kappa the mass of the interval is largest exactly if mu is its middle and smallest exactly if mu is opposite to the middle on the circle. If the mass asked for is above (u-l)/(2 pi), exactly one distribution has that mass and the largest entropy, and its mu is the middle of the interval. If it is below, the ones with the largest entropy have mu opposite to the middle and one common kappa. If it equals (u-l)/(2 pi), every kappa has the mass at some mu, and no distribution has the largest entropy. If the runs completed by maxent end at proper distributions and one of them at one of largest entropy, the distribution returned has the mass up to 1e-4, a kappa not above the optimal one, and a kappa above the optimal one for the mass minus 1e-4; if the runs that pass the check have exactly the mass, it has the largest entropy.", "quantifier": "all intervals in [-pi, pi] shorter than 2 pi, all masses between 0 and 1, all mu in [-pi, pi] and all positive kappa, all sequences of optimisation runs", "why_tests_cant": "A test compares one answer of the optimiser with a stored one; that nothing better exists for that or any other interval, and that for one mass there is no answer at all, is a statement about all distributions of the family.", "anchors": ["preliz/distributions/vonmises.py:55-65", "preliz/unidimensional/maxent.py:98-145", "preliz/internal/optimization.py:13-77"]}
{"id": "C151", "title": "maxent for VonMises with mu or kappa given", "statement": "For an interval [l, u] inside [-pi, pi]. With mu given and a mass other than (u-l)/(2 pi): if any kappa gives the interval the mass there is a smallest such kappa, and it alone has the largest entropy; with mu inside the interval every mass above (u-l)/(2 pi) and below one can be had, with mu outside it every positive mass below (u-l)/(2 pi). With kappa given the masses that can be had are those between the mass at the mu opposite to the middle of the interval and the mass at the middle; two values of mu give the same mass exactly if they are at the same distance from the middle on the circle, and all have the same entropy. maxent keeps the given value; with mu given it returns the smallest kappa of the completed runs that have the mass up to 1e-4, with kappa given the first of them; if none has it, the first run.", "quantifier": "all intervals in [-pi, pi], all masses, all given values, all sequences of optimisation runs", "why_tests_cant": "Which masses can be had, and that the answer depends on the order of the runs when kappa is given, are statements about all parameters and all runs; a test sees one run.", "anchors": ["preliz/distributions/vonmises.py:55-65", "preliz/unidimensional/maxent.py:98-145", "preliz/internal/optimization.py:13-77"]}
{"id": "C152", "title": "quartile for distributions on the integers: which quartiles can be had", "statement": "Three values are never the quartiles of a Geometric distribution (a quarter of the probability is never up to a value when a half, or three quarters, are up to another one; a half and three quarters are together exactly for a whole number and its double), and never those of a Bernoulli distribution. They are those of a DiscreteUniform distribution exactly if, rounded down, they are distinct and equally spaced, and of exactly one, whose ends are written out. They are those of a DiscreteWeibull exactly if the values plus one satisfy the equation for Weibull; the two parameters are then written out. quartile for Geometric() therefore always returns a distribution that misses at least one value, the one with the smallest sum of squared differences; quartile for DiscreteUniform() returns the distribution with the three quartiles if they are equally spaced, and misses one otherwise.", "quantifier": "every three values (whole numbers for DiscreteWeibull), every parameter, every optimiser that finds the minimum", "why_tests_cant": "The statement that no parameter works is about all parameters and values at once; tests of quartile only compare with a tolerance.", "anchors": ["preliz/internal/optimization.py:93-107", "preliz/unidimensional/quartile.py:91-140", "preliz/distributions/geometric.py:17-103", "preliz/distributions/discrete_uniform.py:15-90", "preliz/distributions/discrete_weibull.py:54-70"]}
{"id": "C153", "title": "mle for HalfStudentT: which samples have a most likely distribution", "statement": "At a positive value every HalfStudentT density is below that of the HalfNormal whose sigma is the value, and with ever more degrees of freedom the likelihood of a sample tends to that under HalfNormal. A sample of positive values therefore has a most likely HalfStudentT exactly if some HalfStudentT makes it at least as likely as every HalfNormal. It has one if the mean of the fourth powers exceeds three times the square of the mean square, and that one beats every HalfNormal strictly. A constant sample has none, nor has a sample with a zero. If there is a most likely one within the bounds, mle leaves the object with a most likely one; for a constant sample an optimiser that only returns minima never returns.", "quantifier": "every nonempty sample of values that are not negative, every positive nu and sigma, every optimiser that finds the minimum within the bounds", "why_tests_cant": "Whether a supremum is attained at infinitely many degrees of freedom cannot be seen from finitely many runs: an optimiser just stops at some large nu.", "anchors": ["preliz/internal/optimization.py:239-251", "preliz/distributions/halfstudentt.py:82-111", "preliz/distributions/halfstudentt.py:186-187"]}
{"id": "C154", "title": "The intervals of VonMises are the shortest arcs with their mass", "statement": "eti and hdi of VonMises report two angles. The arc turning counterclockwise from the first to the second has the mass asked for under the distribution itself, is centred at mu, and every other arc of the circle with at least that mass is longer. Both methods report the same interval. The first number is below the second exactly if the arc does not contain the cut at pi; otherwise the values between the two numbers have the complementary mass. The line drawn below a plot runs over exactly the points of the arc in either case.", "quantifier": "every mu (between -pi and pi for the order), every kappa > 0, every mass strictly between 0 and 1, every optimiser that finds the minimum", "why_tests_cant": "Tests compare a few intervals with stored values; that no other arc is shorter is about all arcs, and the stored cases do not cross the cut.", "anchors": ["preliz/distributions/vonmises.py:130-154", "preliz/distributions/distributions.py:417-448", "preliz/distributions/distributions.py:450-484", "preliz/internal/optimization.py:280-344", "preliz/internal/plot_helper.py:28-125"]}
{"id": "C155", "title": "For which distributions hdi and eti report the same interval", "statement": "For a continuous distribution whose density is symmetric and falls on both sides, among them Normal, Laplace, Logistic, Cauchy and StudentT, hdi and eti report the same interval and its middle is the centre. For a density that falls from the lower end of the support, among them Exponential, HalfNormal, HalfCauchy, HalfStudentT and Pareto, hdi starts at the lower end and stops at the quantile of the mass, while eti starts and ends further right and is strictly longer. With a location and a scale the interval is the location plus and minus a number of scales that depends on the mass alone; on the half line it goes from zero to such a number of scales, for Exponential to -log(1 - mass) / lam. For Uniform every interval of the right length inside the support can be the answer of hdi.", "quantifier": "every such distribution, every mass strictly between 0 and 1, every optimiser that finds the minimum", "why_tests_cant": "Tests compare a few intervals with stored numbers or with ArviZ; that the two methods agree, or never agree, is about all parameters and all masses.", "anchors": ["preliz/distributions/distributions.py:417-448", "preliz/distributions/distributions.py:450-484", "preliz/internal/optimization.py:280-344"]}
{"id": "C156", "title": "hdi is determined by the distribution and grows with the mass", "statement": "For a continuous distribution whose density rises, then falls, and is constant on no part of the support, the interval reported by hdi does not depend on how the optimiser found it, and the interval for a smaller mass lies inside the one for a larger mass. Normal, Laplace, Logistic, Cauchy, StudentT, Exponential, HalfNormal, HalfCauchy, HalfStudentT, InverseGamma, and Gamma with alpha above 1 are of this kind. For Uniform neither holds.", "quantifier": "every such distribution, all masses strictly between 0 and 1, all pairs of optimisers that find the minimum", "why_tests_cant": "Tests compute a few intervals with one optimiser and one starting point; uniqueness and nesting are about all intervals and all pairs of masses.", "anchors": ["preliz/distributions/distributions.py:450-484", "preliz/internal/optimization.py:280-344", "preliz/internal/plot_helper.py:54-125"]}
