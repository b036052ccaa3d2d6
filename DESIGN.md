# A Lean 4 model of PreliZ and proofs of its user-visible guarantees

## 1. What is here

* `properties.jsonl` – the properties (C01 …), stated in terms of the public API.
* `lean/Verif/Model/*.lean` – shallow models of the Python functions, branch by branch; each
  definition cites `file:lines` under `/repo/preliz`.
* `lean/Verif/Spec/*.lean` – small specifications that do not mention model helpers (textbook
  moments, what "frozen iff complete" means, what a generalised inverse is, …).
* `lean/Verif/Lemmas/*.lean` – helper lemmas.
* `lean/Verif/Props/*.lean` – the property theorems, one file per area, each with a concrete
  `example` meeting the hypotheses.
* `MANIFEST.json` – property → status and theorem names.  `seeded/LOG.jsonl` – mutation log.

## 2. Trusted base

* The Lean 4.33.0 kernel and the Mathlib definitions used in statements (`ℝ`, `Real.sqrt`,
  `Real.log`, `Real.exp`, `Finset.sum`, `Finset`, measures where used, `AddCircle` in proofs only).
* Axioms: every property theorem depends at most on `propext`, `Classical.choice`, `Quot.sound`.
  No axiom is declared here; no `sorry`, `admit`, `native_decide`, `bv_decide`.
* The reading of the source: the Python text was translated by hand and was not executed.
* Modelling conventions
  * **Numbers.** Python/numpy floats are modelled as exact reals.  Rounding, overflow and
    underflow are outside the model.  Where the code's control flow depends on `inf`/`nan` the model
    uses `EReal` for the infinities and `Option.none` for NaN, with the comparison rules of IEEE.
  * **`None`** is `Option.none`; **exceptions** are values of `Except Err` (or an explicit outcome
    type) carrying the Python exception class; **mutable objects** become states passed through
    functions; object identity (aliasing) is modelled by an explicit heap only where a property
    depends on it (C44).
  * **Division by zero** is total in Lean.  Theorems carry the non-zero hypothesis explicitly, or the
    model has an explicit error/NaN branch.
  * **External code** is a parameter.  The densities, cdfs, quantile functions and moments of the
    base families live in the external package `pytensor_distributions`; scipy's optimisers, brentq
    and KD-trees, numpy's generators, PyMC, Bambi, matplotlib and ipywidgets are external too.  They
    enter as arbitrary functions, constrained only by hypotheses written in the theorem (for example
    `BrentNear` in C99: brentq returns a point next to a change of sign, within its tolerances).

## 3. Per-property plan

| id | modelled | proof |
|----|----------|-------|
| C01–C03 | conversion methods of each family, over ℝ with the NaN branches as `Option`/guards | field arithmetic and `Real.sqrt`; specification = textbook mean/variance |
| C04 | `from_precision`, `to_precision` | the claim is false (the `eps` in `to_precision`): negation for all τ>0, and the exact error as `_partial` |
| C05–C07 | `_parametrization`/`_update` of every univariate family as a state machine over `Option ℝ` arguments | case analysis; negations for Wald/Kumaraswamy/ZINB/TruncatedNormal/BetaScaled where the code deviates; C07 by an invariant over every sequence of calls |
| C08–C10 | `_fit_moments` | algebra against textbook moments; negations for Uniform (1.73205), Pareto etc. when needed |
| C11, C12 | `Truncated.cdf/ppf/logpdf/rvs` over an abstract base | discrete: base = pmf on ℤ with `tsum`; continuous: monotone cdf + density with integral; generalised inverse |
| C13 | `_parametrization` of the modifiers: keyword list against `param_names` | negation by concrete witness (order of keywords), `_partial` when keywords come in the base's order and complete |
| C14–C17 | `Censored` | finite/countable sums; cdf at `upper` is false → negation plus `_partial`; moments: mean/variance proved, skewness/kurtosis negated |
| C18 | `Hurdle` | sums; cdf below zero is `1-psi` → negation plus `_partial` |
| C19, C20 | `Mixture` | list/finset sums, permutation of the block-ordered draws |
| C21, C22, C25 | `eti`, `discrete_hdi`, `find_discrete_mode` | order theory; induction over the sorted accumulation |
| C23 | `_discrete_xvals` | arithmetic on ℤ; "at most n_points" is false → negation and `_partial` |
| C24 | `find_ppf`, `_ppf_single` | termination of both loops from the limits of the cdf; loop invariant |
| C26–C29 | `get_fixed_params`/`get_params`, `optimize_max_ent` selection, `Loss`, `fit_to_sample`, `get_penalization` | induction over lists |
| C30, C31 | `_check_endpoints`, argument validation of `maxent`, `quartile` | decision logic |
| C32, C33 | `combine`, `combine_roulette` | floor arithmetic; finite sums |
| C34, C35 | roulette click handler, `_weights_to_pdf` | invariant over click sequences (false for clicks at y≤0: negation + `_partial`) |
| C36–C38 | `RcParams`, `rc_context`, `read_rcfile` | invariant over op sequences; negations recorded in §5 |
| C39, C40 | `dirichlet_mode`, `optimize_dirichlet_mode` | loop as iteration; termination by an irrational-rotation argument |
| C41–C44 | `unravel_projection`, `write_pymc_string`, `from_pymc`, `back_fitting_idata` | induction; heap model for aliasing |
| C45, C46 | `ppe`, `disable_pymc_sampling_logs` | step-by-step exception semantics; negation for the non-exception-safe points |
| C47–C50 | `ppa` state machine | invariant over sessions; negations for exhaustion and boundaries with a target |
| C51 | `pytensor_jit` cache | refinement to the uncached function |
| C52 | `process_extra` | executable parser on character lists |
| C53 | `match_moments` target construction | induction over the letters; negation for arrays |
| C54 | catalog tables | `decide` over the whole (finite) table |
| C55 | `generate_range` | case analysis; negation at 0 with positive support |
| C56 | VonMises interval wrapping | arithmetic mod 2π; exception-safety negation |
| C57, C58 | `mean_and_std`, closed-form `_fit_mle` | convexity / `log x ≤ x - 1` inequalities |
| C59 | `Censored.entropy` | integrals/sums of `Real.negMulLog`; negation for discrete bases |
| C60 | `Triangular._fit_mle`, `nb_fit_mle` | likelihood is zero: negation |
| C61 | moments and entropy of `Truncated` with a discrete base | sums over the integers between the bounds; negations for unbounded ranges and gaps |
| C62 | moments of `Hurdle` and `Mixture` computed on a grid | finite sums against the law; negations for Hurdle |
| C63 | contour levels of the Dirichlet and bivariate plots | order statistics of the density values; negations for ties |
| C64 | `MvNormal`, `Dirichlet` parameters and marginals | linear algebra over `Fin n → ℝ`; negation for singular covariances |
| C65 | `_fit_mle` of VonMises, ExGaussian, SkewNormal (starting values) | circular statistics, moment equations; negations for cancelling or over-skewed samples; `Lemmas/BesselRatio`, `Props/VonMisesFit`: the equation for kappa has a solution in the bracket; `Lemmas/LawThird`, `Props/ExgLaw`: mean, variance and skewness of the law of the fitted ExGaussian |
| C66 | `optimize_ml` and its callers | abstract minimiser contract; negations where the bounds cut off the optimum |
| C67 | warnings of `maxent`, `quartile`, `match_quantiles` | order statistics and exact relative errors; negations |
| C68 | `info()` | every frozen object is the result of `_update`; the table determines and is determined by the canonical values |
| C69 | `from_pymc` on compound nodes, `from_prior` | user text, PyMC's node for it and the PreliZ object as three inductive descriptions; mutual induction over nested mixtures |
| C70 | `summary`, `eti`, `hdi`, `_get_name` | rounding specified as nearest multiple, any ties; idempotent and monotone; negations |
| C71 | `continuous_hdi`, `find_hdi` (continuous branch) | minimiser under contract, existence by compactness, window-shifting argument for unimodal densities; witness for `Censored` |
| C72 | `to_pymc`, `to_bambi`, `params_dict` | PyMC class list abstract, its keyword conventions in the spec; mutual recursion over nested modifiers; composed with C69 for the round trip |
| C73 | `optimize_moments_rice`, `garcia_approximation` | Rice law as the norm of a normal vector (variance, scaling from Mathlib Gaussians), its documented density by polar coordinates (`Lemmas/Bessel`), the Bessel formula for its mean, the attainable moments by the intermediate value theorem; Weibull moments by the Gamma integral, accuracy of the approximate shape by Euler's product with rational tail bounds (`Lemmas/GammaDouble`) and polynomials checked on intervals (`Lemmas/PolyRange`, `Lemmas/WeibullShape`); minimiser under contract; negations |
| C74 | `Props/NumFit.lean` | optimisers as strategies that query the mutable object; history independence and optimality among the user's choices |
| C75 | `Props/Refit.lean` | every `_fit_mle` as a function of the object; refits agree on the names and parameters; counterexamples for the numerical starts |
| C76 | `Props/Explorer.lean` | regular expressions as recursive functions on character lists; induction over calls and arguments; finite table of names by `decide +kernel` |
| C77 | `Props/ReadModel.lean` | induction over the source text; the return list and the assignments are given as texts with padding |
| C78 | `Props/MomentsMore.lean` | log-convexity of the gamma function; list sums |
| C79 | `Props/PointInterval.lean` | sets of values covered by the drawn segments, computed from the branches |
| C80 | `Props/Survival.lean` | complements of the cdf theorems of C11–C19; right exactly where the cdf is |
| C81 | `Props/Curves.lean` | induction over the drawn points; pigeonhole for skipped values |
| C82 | `Props/Project.lean` | loop invariant over the rounds; law of a randomly chosen sample by independence |
| C83 | `Props/Redraw.lean` | counting in the sorted list; invariant of the keyword dictionary over sequences of drawings |
| C84 | `Props/RouletteSession.lean` | invariants over lists of user actions; nested observers by induction on the nesting |
| C85 | `Props/QuartileInt.lean` | induction over the list of families; measure of intervals; induction over user actions |
| C86 | `Props/PpaDistance.lean` | sorted-list argument for quantiles; induction over the rounds of the first display |
| C87 | `Props/MleTop.lean` | induction over the list of objects with a heap |
| C88 | `Props/Truncation.lean` | floor and ceiling inequalities |
| C89 | `Props/Sampling.lean` | inverse transform theorem; product measures; expectation of counts by independence |
| C90 | `Props/HdiLong.lean` | measure of half-open intervals against integers; countability of the differences of a step function |
| C91 | `Props/ContMoments.lean`, `Lemmas/Trapezoid.lean` | error of the trapezoidal rule for C² functions; law against density on an interval; closed sums of squares |
| C92 | `Model/Delegate`, `Spec/Delegate`, `Props/Delegate` | complete table of the calls of all 44 scalar families; argument binding of method and wrapper; library functions themselves abstract |
| C93 | `Model/Posterior`, `Props/Posterior` | which objects are fitted and in which order, identities of copies; induction over the free variables, finite table of names |
| C94 | `Model/Categorical`, `Props/Categorical` | log odds as extended reals, NaN as none; monotone inverse pair, induction over the vector, finite table of calls |
| C95 | `Model/Citations`, `Props/Citations` | texts as character lists, the three regular expressions as matchers, reference.bib itself; induction over the file and over docstrings |
| C96 | `Model/PlotCall`, `Props/PlotCall` | which function draws with which arguments; arrays of parameters one-dimensional; styles of plot_pdf |
| C97 | `Model/Panels`, `Props/Panels` | which coordinate or sample is drawn on which axes; labels with an abstract number format; references |
| C98 | `Model/Interactive`, `Props/Interactive` | the table of start values and the bounds of all 44 families; which function is drawn; on top of the models of Param, Wrapper and Slider |
| C99 | `Model/MixPpf`, `Props/MixPpf` | quantiles of mixtures: the search, its end points, its array |
| C100 | `Model/Joint`, `Spec/Multivariate`, `Lemmas/GammaRatio`, `Lemmas/DirichletLaw`, `Props/Joint` | Marginal laws of Dirichlet and MvNormal, joint densities, grid of the contours |
| C101 | `Model/Modes`, `Spec/Modes`, `Props/Modes` | modes of Truncated, Censored, Hurdle and of families without a formula; the bounded scalar minimiser is a parameter with contract `FindsMin` |
| C102 | `Model/RcObjects`, `Props/RcObjects` | settings as objects with references to storages; programs are lists of actions, exceptions are caught |
| C103 | `Model/MvObject`, `Lemmas/BetaMoments`, `Props/MvObject` | Multivariate objects: summary, moments, sessions, grids |
| C104 | `Model/Support`, `Spec/Support`, `Lemmas/Boxes`, `Props/Support`, `Props/Boxes`, `Props/BoxAgree` | `support` and `params_support` of all families over all histories, and what `info` shows |
| C105 | `Model/ElicitPlot`, `Spec/ElicitPlot`, `Lemmas/ElicitPlot`, `Props/ElicitPlot` | Plots of the elicitation functions: axes, colours, options |
| C106 | `Spec/Law`, `Lemmas/LawBase`, `LawDiscrete`, `LawGamma`, `LawNormal`, `LawSimple`, `LawLaplace`, `LawLogGamma`, `LawEven`, `Props/Law` | Means and variances as integrals of the documented densities, for the 23 families with closed-form moments |
| C107 | `Model/ExplorerBambi`, `Spec/Bambi`, `Props/ExplorerBambi` | the regular expression of Bambi priors as an automaton, proved equal to the language of the expression; then the lemmas of C76 |
| C108 | `Model/Source`, `Spec/Source`, `Props/Source` | removing comments line by line and its idempotence; `mapM` over the signature |
| C109 | Model/TruncNormal, Spec/TruncNormal, Lemmas/TruncNormal, Props/TruncNormal | parameters of TruncatedNormal over extended reals, the path of an elicitation and of a likelihood fit, law with the documented density |
| C110 | Model/Printed, Spec/Printed, Lemmas/Printed, Lemmas/PrintedText, Props/Printed | the texts of format `.3g`, names and parameters of a printed distribution, the reader `readPrinted`, the split at the parenthesis |
| C111 | Model/Special, Lemmas/PolyCheck, Lemmas/Lanczos, Props/Special | the two Lanczos approximations of internal/special.py are within 5e-13 (relative) and 6e-10 (absolute) of Γ and log Γ for all positive arguments; mean of the fitted Weibull, Dirichlet density on the triangle |
| C112 | Model/Special (`gammaFinite`), Spec/LawMore, Lemmas/LawMore, Props/LawMore | documented densities of HalfStudentT and ExGaussian (a mixture of normals by Tonelli) with their moments; variance of the fitted law with the package's own Gamma and its overflow |
| C113 | Model/Overview, Spec/Html, Lemmas/Overview, Props/Overview | the HTML table of a distribution, the text and HTML of the catalogue, `catalog.info`; the texts of the moments and of finite ends are given |
| C114 | Model/PpaUi, Props/PpaUi | the window of `ppa`: clicks, frames, presses; widgets for references and the kind of plot are not modelled |
| C115 | Model/WarnText, Spec/WarnText, Lemmas/PrintedP, Props/WarnText | the texts of the warnings of maxent, quartile, match_moments and match_quantiles, read back as numbers and lines; `format(x, ".pg")` for any p |
| C116 | Spec/LocScale, Lemmas/LocScale, Props/LocScale | what maxent and quartile return for Normal, Laplace, Logistic, Cauchy and StudentT: the centred member is the only one with the largest entropy; skew quartiles have no solution; end to end through the selection of runs and the quartile fit |
| C117 | Spec/HalfScale, Lemmas/HalfScale, Props/HalfScale | The documented densities of Exponential, HalfNormal, HalfCauchy and HalfStudentT as folded symmetric densities; which scales give an interval a mass (one, two, or none), their entropies, and what `optimize_max_ent` and `optimize_quartile` return. Runs of the optimiser are data, as in C27 and C116. |
| C118 | Spec/CountOne, Lemmas/CountOne, Props/CountOne | The documented probabilities of Poisson and Geometric; that the entropy grows with the mean; which parameters give a range of counts a mass (one, two, or none), and what `optimize_max_ent` returns. Runs of the optimiser are data, as in C27 and C116. |
| C119 | Props/FixedStat | `prob_bound` with `fixed_stat` for the families with a location and a scale (the statistic is the location): which distributions pass the check, which of them has the largest entropy, what `optimize_max_ent` returns and whether `maxent` warns. |
| C120 | Spec/QuartileShape, Lemmas/QuartileShape, Props/QuartileShape | which triples are the quartiles of a Uniform, Gumbel, LogNormal, LogLogistic, Weibull or Pareto; the parameters; what quartile returns |
| C121 | Spec/QuartileSkew, Lemmas/QuartileSkew, Props/QuartileSkew | families that lean to the right of their median; quartiles they cannot have; the examples in the documentation of quartile |
| C122 | Spec/MaxentHdi, Lemmas/MaxentHdi, Props/MaxentHdi | maxent for location-scale families, symmetric or not: largest entropy among those with the mass ⟺ the interval is a shortest one with the mass ⟺ equal densities at its ends; existence (compactness) and uniqueness; closed form for AsymmetricLaplace |
| C123 | Spec/MatchLine, Lemmas/MatchLine, Props/MatchLine (model: Model/NumFit) | match_quantiles for location-scale families is the least-squares line of the targets on the standard quantiles (through the origin for scale families on the half line); own quantiles are recovered, two levels matched exactly, units respected |
| C124 | Spec/MatchMv, Lemmas/{MatchMv,NoVar}, Props/MatchMv (model: Model/NumFit) | which mean and variance 14 families with two free parameters can have (iff, unique parameters written out), what match_moments returns for them, for Poisson/ChiSquared and for scale families on the half line; the documented law has a variance exactly for the stated parameters |
| C125 | Spec/Widest, Lemmas/Widest, Props/Widest | Masses and entropies of uniform and triangular densities in closed form; which of them maxent prefers, that the position (Uniform) and the mode (Triangular) are not determined by the request, and what is returned for every sequence of runs. |
| C126 | Model/WrapElicit, Spec/WrapElicit, Lemmas/WrapElicit, Props/WrapElicit | elicitation functions on Truncated, Censored, Hurdle and Mixture: attributes of the modifier, splitting into given and free, moment matching, points tried, point found |
| C127 | Spec/DiscreteWide, Lemmas/DiscreteWide, Props/DiscreteWide | Masses and entropies of discrete uniform distributions; which masses a range of integers can have, the number of values of the best distributions, and what maxent returns for every sequence of runs. |
| C128 | Model/LMoments, Spec/LMoments, Props/LMoments | `moments` and `lmoments` letter by letter; for which classes each figure exists (methods of the class or the `NotImplementedError` of the base class), and the library calls they stand for. |
| C129 | Spec/ParetoBest, Lemmas/ParetoBest, Props/ParetoBest | Masses and entropies of Pareto densities in closed form; the only one with the largest entropy for a mass on an interval, and what maxent returns for every sequence of runs. |
| C130 | `Spec/PeakGiven.lean`, `Lemmas/PeakGiven.lean`, `Props/PeakGiven.lean` | maxent for Normal, Laplace, Logistic, Cauchy and StudentT with the location or the scale given: one, two or no solutions, which of them is returned |
| C131 | Spec/LogScale, Props/LogScale | maxent for LogNormal and LogLogistic: the best distribution exists, is unique, its median lies above the geometric mean of the ends; from zero the median is u/e, and no best distribution for masses up to one half. |
| C132 | Spec/SkewLaw, Lemmas/SkewLaw, Lemmas/SkewStudent, Props/SkewLaw | the documented densities of SkewNormal and SkewStudentT: total mass, mean, variance, special cases, limits, direction of skew, single mode; used by C122 and C123, whose families include them. |
| C133 | `Spec/ShiftGiven.lean`, `Lemmas/ShiftGiven.lean`, `Props/ShiftGiven.lean` | maxent with the location or the scale given for Gumbel, Moyal, AsymmetricLaplace, SkewNormal, SkewStudentT and the symmetric families |
| C134 | Spec/CountLaw, Lemmas/CountLaw, Props/CountLaw, Props/CountFit | laws of the count families from their documented mass functions (finite and infinite sums, Gamma and Beta mixtures); attainable mean/variance pairs; match_moments and the moment fit |
| C135 | Spec/PositiveGiven, Lemmas/PositiveGiven, Props/PositiveGiven | maxent for Weibull, Gamma, InverseGamma, LogNormal, LogLogistic and Pareto with one parameter given: which masses are attained, by how many distributions, which one maxent returns |
| C136 | Model/MaxentRun, Spec/MaxentRun, Props/MaxentRun | optimize_max_ent with its object as state: starting points, runs, the check of their ends; equal to choosing among independent runs |
| C137 | Model/VarGraph, Spec/VarGraph, Props/VarGraph | `retrieve_variable_info`, `non_constant_parents`, `get_initial_guess` and `unravel_projection` with back-transformations, over expression graphs unfolded into trees; together with the writer of C42: exactly which models give a complete text. PyTensor's `ancestors` and PyMC's `is_transformed_name`/`get_untransformed_name` are outside the repository and written down as documented |
| C138 | Model/UnitFit, Spec/MoreLaws, Lemmas/MoreLaws, Lemmas/LogitNormalLaw, Lemmas/VonMisesLaw, Props/MoreLaws | Documented laws of Kumaraswamy, LogLogistic, LogitNormal and VonMises; LogLogistic determined by mean and standard deviation; moment fits |
| C139 | Spec/MlExist, Lemmas/MlConvex, Lemmas/MlExpFam, Lemmas/MlGammaBeta, Lemmas/MlCauchy, Lemmas/MlReduce, Lemmas/MlFamilies, Props/MlExist, Props/MlRun | Existence and uniqueness of most likely parameters (strict convexity, exponential families, hyperbolic convexity for Cauchy), the fit with an optimiser that finds the minimum |
| C140 | Spec/MlCounts, Lemmas/MlNegBin, MlZip, MlAsym, Props/MlCounts, MlCountsRun | Most likely NegativeBinomial, ZeroInflatedPoisson, AsymmetricLaplace, BetaScaled and DiscreteWeibull: for which samples they exist, and what `mle` returns for them |
| C141 | Lemmas/MlNegBinOne, MlDisWeibull, MlKuma, Props/MlMore, MlMoreRun | The most likely NegativeBinomial is unique; for which samples a most likely DiscreteWeibull and Kumaraswamy exist, and what `mle` returns for them |
| C142 | Spec/MlTrunc, Lemmas/MlTrunc, Props/MlTrunc, MlTruncRun | For which samples a most likely TruncatedNormal exists; SkewNormal for two values; SkewStudentT never; what `mle` returns for them |
| C143 | Lemmas/MlRice, Props/MlRice | Existence of a most likely Rice distribution, its mean square is that of the sample, and what `mle` returns |
| C144 | `Props/SampleCall.lean` | shape of samples for nested distributions, default size; induction over the nesting |
| C145 | Model/Nest, Spec/Nest, Props/Nest | parameters held by the objects of a nest of modifiers; dictionaries as ordered lists, induction over the nest |
| C146 | Model/NestLaw, Spec/NestLaw, Props/NestLaw | The functions of Truncated and Censored are read for an arbitrary inner object (kind, support, logpdf, cdf, ppf), so nests of any depth are compositions; `fnsOf` connects them with the objects of C145.  Hurdle and Mixture are left out of these nests. |
| C147 | Model/NestMix, Props/NestMix | Hurdle and Mixture around objects known by their functions.  `pdf` and `logpdf` are separate code in both and proved to agree.  `Mixture.ppf` (a search) is a parameter. |
| C148 | Model/NestMix, Props/NestSample | samples of nested modifiers: product law of the quantile function applied to independent uniforms; Truncated around Censored or Hurdle loses the point masses |
| C149 | Model/NestMix, Props/NestAround | Truncated, Censored and Hurdle around a Mixture are mixtures of the modified components with reweighted components; law of Truncated around Mixture |
| C150 | Spec/VonMisesBest, Lemmas/VonMisesMass, Props/VonMisesBest | The mass of an interval and the entropy of VonMises as functions of mu and kappa; which distribution has the largest entropy for a given mass of an interval, and what maxent returns for every sequence of runs. |
| C151 | Props/VonMisesGiven | maxent for VonMises with one parameter given: attainable masses, the solutions, and which of them is returned for every sequence of runs. |
| C152 | Spec/QuartileCount, Props/QuartileCount | quartile for Geometric, Bernoulli, DiscreteUniform and DiscreteWeibull: which values can be quartiles, and what is returned |
| C153 | Lemmas/MlHalfStudent, Props/MlHalfStudent | mle for HalfStudentT: comparison with HalfNormal, for which samples there is a most likely distribution, and what mle returns |
| C154 | Spec/Arc, Lemmas/VonMisesArc, Props/VonMisesArc | eti and hdi of VonMises as arcs: mass, shortness, order of the two ends |
| C155 | Spec/TwoIntervals, Props/TwoIntervals, Props/IntervalScale | hdi against eti: equal for symmetric densities with one peak, different for falling densities, hdi undetermined for Uniform |
| C156 | Spec/Nested, Props/Nested, Props/NestedMore | hdi of densities with one mode and no flat part: uniqueness and nesting; both fail for Uniform |

Where each area lives (`Model` / `Spec` / `Props`):

| area | model | specification | theorems |
|------|-------|---------------|----------|
| parametrisations | `Param`, `Moments`, `RiceWeibull`, `MomentsMore` | `Param`, `Moments`, `Rebuild`, `RiceWeibull` | `RoundTrip`, `Param`, `Reported`, `Moments`, `RiceWeibull`, `MomentsMore`, `Truncation` |
| Truncated, Censored, Hurdle, Mixture | `Modifier`, `CensoredEntropy`, `Wrapper`, `Survival`, `Sample` | `Modifier` | `Truncated`, `Censored`, `CensoredMoments`, `CensoredEntropy`, `Hurdle`, `Mixture`, `Wrapper`, `Survival`, `Sampling` |
| intervals, grids, quantile search | `Interval`, `Loop`, `Hdi`, `HdiLong`, `PointInterval`, `Curves` | `Interval` | `Intervals`, `Grids`, `Hdi`, `HdiLong`, `PointInterval`, `Curves` |
| optimisation and validation | `Optim`, `Match`, `NumFit`, `Refit` | `Optim`, `NumFit` | `FixedParams`, `Select`, `Validation`, `Combine`, `Match`, `NumFit`, `Refit` |
| maximum likelihood | `Mle`, `MleMore`, `MlFit`, `MleTop` | `Likelihood`, `Circular`, `MlDomain` | `Mle`, `MleApprox`, `MleMore`, `MlFit`, `MleTop` |
| moments of modified distributions | `TruncatedMoments`, `GridMoments`, `ContMoments` | `Modifier` | `TruncatedMoments`, `GridMoments`, `ContMoments` |
| multivariate distributions, contours | `Multivariate`, `Contours` | in the theorem files | `Multivariate`, `Contours` |
| warnings, `info()`, `summary()` | `Warnings`, `Info`, `Summary` | `Param`, `Rebuild` | `Warnings`, `Info`, `Summary` |
| roulette, quartile widget, sliders | `Roulette`, `RouletteSession`, `QuartileInt`, `Slider`, `Extra` | in the theorem files | `Roulette`, `RouletteSession`, `QuartileInt`, `Slider`, `Extra` |
| settings | `Rc` | `Rc` | `Rc` |
| Dirichlet elicitation | `Dirichlet` | in the theorem file | `Dirichlet` |
| PyMC / Bambi input and output | `Ppl`, `FromPymc`, `ToPymc`, `Project` | `FromPymc`, `ToPymc`, in the theorem files | `Ppl`, `FromPymc`, `ToPymc`, `Unravel`, `ModelText`, `Project` |
| predictive assistant and explorer | `Ppa`, `PpaDistance`, `Explorer`, `ReadModel`, `Redraw` | in the theorem files | `Ppa`, `PpaDistance`, `Explorer`, `ReadModel`, `Redraw` |
| catalogue, compiled-function cache | `Catalog`, `Cache` | in the theorem files | `Catalog`, `Cache` |

No property is judged inexpressible.  What is out of reach of the model is named per claim in
`MANIFEST.json`.

## 4. Code not modelled

* The numerical library `pytensor_distributions` (pdf, cdf, ppf, moments, entropy and random draws of the base
  families): it is not in this repository.  A base distribution enters as a structure of functions with the
  contract written in `Modifier.Base`, or, where a claim is about a particular law, as the density or mass
  function in the class documentation (`Spec/Law`, `Spec/CountLaw`, `Spec/LocScale`, ...).  Which parameters are
  handed to which function of the library is modelled (C92).
* `scipy.optimize`: an optimiser is an arbitrary strategy that asks for residuals and stops (`NumFit.Optimiser`),
  or an arbitrary list of completed runs; where a claim needs a found minimum it is a hypothesis (`Finds`).
* matplotlib and ipywidgets: calls are modelled as a list of what is drawn (C79, C81, C96, C97, C100, C105, C113,
  C114) or as events and states (C34, C76, C84, C107, C108); pixels, fonts, colour maps and layout are not.
* PyMC, Bambi, PreliZ' reading of Python source: models are finite graphs of variables and finite texts; the
  samplers and the Python parser are not modelled.
* Floating-point arithmetic: numbers are real numbers, machine epsilon is the number 2^-52, NaN is `none`.  Where
  an integer conversion or a three-digit format matters it is modelled as such.
* The numba compiler: compilation is a function from source to function; the cache around it is modelled (C51).

## 5. Disagreements between the code and the properties

Each line: what a user would expect, what the code does, and the theorem that proves it.

### Parametrisations
* The precision reported is not the one requested (machine epsilon is added to the variance) –
  `precision_not_round_trip`; re-parametrising from `params_dict` therefore drifts –
  `precision_rebuild_drifts`; a fixed precision is not held fixed during optimisation – `tau_not_fixed`.
* Kumaraswamy(a=0) is frozen although incomplete, likewise ZeroInflatedNegativeBinomial without psi –
  `frozen_though_incomplete`.
* After an incomplete re-parametrisation a frozen object keeps stale parameters under new names –
  `stale_params_mislabelled`.
* Wald given only phi loses it – `wald_phi_not_fixed`.
* Rice, SkewNormal, SkewStudentT and ZeroInflatedNegativeBinomial document two parametrisations but
  `info()` lists none – `info_lists_wrong`; the precision row of `info()` describes a different
  distribution – `info_precision_drifts`.
* Unattainable means and deviations give non-positive Beta shapes without an error –
  `beta_from_mu_sigma_unattainable`.
* `Categorical(logit_p=...)` applies the two-category `expit` to every entry: three or more non-negative log odds sum to at least 3/2 and nothing complains (`categorical_sum_wrong`); `_update` does not refresh the support (`categorical_update_support`). (C94)
* C104: `HyperGeometric._update` converts its attributes to integers but computes `support` from the unconverted arguments; `params_support` of its `k` and `n` ends at the `N` of the last `_parametrization` (or `None`). `Bernoulli` uses the interval of `p` for `logit_p`; `NegativeBinomial` and `ZeroInflatedNegativeBinomial` give `p` no upper bound; `Beta` admits `mu`, `sigma` pairs with negative `alpha`; `ExGaussian`'s `nu` starts at 1e-4; `DiscreteUniform(lower=0.5)` has the support (0.5, inf) until it is completed, then from 0. `info` shows support ends smaller than 1e-10 as 0.
* `TruncatedNormal(mu, sigma)` has infinite bounds, so nothing is left to fit, but it is not marked complete: it cannot be plotted or sampled as such, and `maxent` does not refuse it but optimises over no parameter (C109).
* `repr` of an object that is marked complete but has a parameter `None` raises TypeError (`None` formatted with `.3g`, distributions.py:55-58). Such an object is left behind by a `maxent` that is refused after `fixed_params` has been applied to a complete `Uniform` (`printed_missing_reached`).
* The printed form has three significant digits: `Uniform(1000, 1001)` prints as `Uniform(lower=1e+03, upper=1e+03)`, and the texts written for PyMC and Bambi models inherit this (`printed_not_injective`).
* skew_studentt.py:58, 64 say that sigma converges to the standard deviation as `a` and `b` approach each other. With `a = b` the variance is `sigma^2 a / (a - 1)` (`skew_student_sigma`).

### Moment matching at initialisation
* Uniform uses 1.73205 for √3 – `uniform_moments_not_exact`.
* Beta shapes are clamped at 1/2 – `beta_moments_clamped`; StudentT with nu ≤ 2 or missing misses the
  variance – `studentt_moments_not_exact`; Bernoulli and Geometric can leave the parameter domain –
  `bernoulli_geometric_inadmissible`.
* The documented variance of AsymmetricLaplace is not the variance – `asym_laplace_docstring_variance`.
* `optimize_moments_rice` multiplies the deviation by 0.655 below the ratio 1.913, where the scale of a Rayleigh law is the deviation divided by 0.655: the variance is too small — `rice_rayleigh_wrong`.
* `garcia_approximation` gives a negative shape when the deviation is at least 2.75 times the mean — `weibull_negative_shape`; from 1.5 times the mean on the law it returns always has too small a deviation, less than half of it from 2.5 times on — `weibull_deviation_wrong`.
* `HalfStudentT._fit_moments` replaces a given nu of at most 2 by 2.1 (`half_student_nu_replaced`); `ExGaussian._fit_moments` misses the mean by 1e-4 (`exgaussian_moments`); `Mixture._fit_moments` drops the given weights and leaves `params` as they were (`mixture_weights_lost`, `mixture_params_stale`).
* C106: the density printed for `AsymmetricLaplace` has `b` as a rate, the moment fit and the external code use it as a scale. The variance printed for `BetaScaled` has `upper - lower` where its square is needed; the density and variance printed for `StudentT` leave out `mu` and `sigma`.
* `TruncatedNormal._fit_moments` takes mean and standard deviation of the untruncated law; the start has the requested moments exactly when both bounds are infinite (C109).
* HalfStudentT with many degrees of freedom (from about 284 on, where the package's Gamma overflows): the scale is that of a half-normal, and the variance is too large by between 2/(nu-2) and 4/(nu-2) of the requested one (`half_student_fit_wrong`).
* A Binomial with both parameters free has a given mean and variance only if mean^2/(mean - variance) is a whole number (`binomial_attained`), so a fit of both by a continuous optimiser almost never reproduces the request.
* The moment fit of LogitNormal (logitnormal.py:149-152) takes the logit of the mean for `mu` and six times the standard deviation, on the scale of the unit interval, for `sigma`. The request becomes the median. The mean is right only for 1/2 and otherwise strictly between 1/2 and the request (`logitnormal_fit_partial`, `logitnormal_fit_misses`).

### Truncated, Censored, Hurdle, Mixture
* Truncated with a non-integer lower bound on a discrete base is not a distribution –
  `truncated_noninteger_lower`; ppf(0) can be below the lower bound – `truncated_ppf_zero_below`.
* Censored: a non-integer upper bound or equal bounds on a discrete base give wrong masses –
  `censored_noninteger_upper`, `censored_equal_bounds`; the cdf at the upper bound is below one –
  `censored_cdf_upper_below_one`; skewness and kurtosis are wrong – `censored_skewness_wrong`,
  `censored_kurtosis_wrong`; the entropy of a discrete base is wrong even without censoring –
  `censored_entropy_coin`.
* Hurdle: the cdf is 1 − psi below zero and not monotone – `hurdle_cdf_negative`,
  `hurdle_cdf_not_monotone`; a continuous base with mass next to zero totals more than one –
  `hurdle_continuous_mass_exceeds_one`; frozen without psi – `hurdle_frozen_without_psi`.
* Truncated with a discrete base: the moments of a range of more than 201 integers are computed on every
  second, third … one only – `truncated_mean_wrong` –, the entropy is then NaN – `truncated_entropy_wide`,
  `truncated_entropy_wrong` –, as it is when an integer inside has probability zero –
  `truncated_entropy_gap`.
* Hurdle: the variance is not that of its law – `hurdle_var_wrong`; the entropy can be NaN –
  `hurdle_entropy_wrong`.
* Modifiers label parameters by keyword order – `wrapper_order_mislabelled`, `wrapper_subset_frozen`,
  `wrapper_parametrisation_mislabelled`; fitting moments to a Truncated or Censored forgets its
  bounds – `refit_forgets_bounds`.
* Mixture accepts a surplus weight and then loses mass – `mixture_extra_weight`; `rvs(size=0)` raises –
  `mixture_rvs_zero`.
* C80: `sf` of a censored distribution at its upper bound is the base mass beyond it instead of 0, and `sf` of a hurdle distribution at negative points is psi instead of 1; both follow from the cdf defects of C15 and C18.
* `Mixture.rvs` returns the values grouped by component: a single entry does not follow the mixture (`mixture_first_component`), `size=None` gives an array with one entry and a tuple of sizes comes back flat (`sample_shapes`). (C89)
* `Hurdle.var()` with a continuous base integrates the density over the grid with the trapezoidal rule, so the mass at zero counts as one value of a density instead of `(1 - psi) m²` (`hurdle_moments_cont`, `hurdle_var_cont_wrong`: less than 0.08 instead of 5/48). (C91)
* Moments of modified continuous distributions carry the error of the trapezoidal rule: the variance of a truncated uniform distribution is always too large (`truncated_uniform`). (C91)
* ZeroInflatedBinomial.pdf(nan) is 0 while the other two zero-inflated families return nan, and pdf(-inf) is nan for those two but 0 for ZeroInflatedBinomial (`zi_pdf`, `zi_binomial_pdf`, `zi_binomial_nan`).
* `Mixture.ppf` stores its results in an array of the type of the levels: `ppf(1)` with the integer 1 raises OverflowError for an unbounded mixture and cuts the end of a bounded one to a whole number; a list of one level gives a number; a component of weight zero counts for `ppf(1)` (`mixture_ppf_integers`, `mixture_ppf_shape`, `mixture_ppf_zero_weight`).
* `Hurdle.entropy` of a continuous base counts almost nothing of the mass at zero (`hurdle_entropy_cont_wrong`).
* `mode()` (C101): `Hurdle.mode` searches the support of the base, so over a base that cannot be zero the value 0 is never reported even if it has probability 3/4 (`hurdle_mode_wrong`); over a continuous base the reported mode of a Censored or Hurdle is a value of probability zero although a bound (or zero) is an atom; on more than 201 integers the grid skips values, and the true mode may be one of them (`truncated_mode_wrong`). `Mixture` has no `mode` (NotImplementedError).
* C126: `Truncated(Gamma(alpha=2), 0, 10)`: Gamma has no `params` before it is complete, so the modifier starts from `None` for both parameters and an elicitation replaces `alpha` (`base_values_replaced`; with families such as Gumbel, which list incomplete parameters, the value is kept, `base_values_seen`). `Truncated(Gamma(), mu=2, sigma=None)` sets the attributes `mu`, `sigma` while `param_names` are `alpha`, `beta`: AttributeError (`other_names_refused`). A Hurdle with `psi=None`: moments are matched without it and the start value is `None`: TypeError (`hurdle_psi_not_free`).
* C126: `fixed_params={"mu": 0}` makes `_parametrization` of the modifier see only complete values: it becomes frozen and maxent refuses it; `fixed_params={"mu": 0, "sigma": None}` passes no bounds, which become infinite (`modified_fixed_params_refused`, `modified_fixed_params_unbound`). `Censored` moves its bounds into the support of the base before the search, so the bounds reported afterwards are not those given. `Truncated(Uniform(), 0, 10)` shows the bounds under the names of the parameters of the base: nothing is free (`uniform_nothing_free`). A Mixture has no attributes named after the parameters of its components: AttributeError (`mixture_refused`).
* `Rice().rvs()` returns an array with one entry where every other family returns a number: its `size` defaults to 1, not to None (`rvs_default_is_none`). A censored Mixture inherits the flat arrays of Mixture (`rvs_size_respected`). (C144)
* C145: nested modifiers. `_parametrization` passes on `dict(zip(param_names, params))`, in which a repeated name keeps only its last value. `Truncated(Truncated(Truncated(d, a, b), ...), ...)` has lost `a` and `b` (`nested_inner_lost`); `Hurdle(Censored(TruncatedNormal(mu, sigma, a, b), ...), psi)` has lost the bounds of the TruncatedNormal (`nested_leaf_lost`); `Truncated(Hurdle(Truncated(Uniform(a, b), l, u), psi), ...)` takes psi for the lower bound (`nested_misread`). Any modifier around a complete Mixture raises TypeError (`nested_refused`), so `from_pymc` of a censored mixture, whose arguments C69 describes, ends in that error, and the samples of a censored Mixture in C144 exist only if the components were completed after wrapping.
* Truncated around a Censored with the same upper bound divides by the censored cdf at that bound, which lacks the mass collected there (C15): the probabilities add up to 1 / P(X ≤ u).  For a continuous distribution the same happens with a shared lower bound, where `adjust_lower` does not step below the atom (C146).
* Truncated around a Hurdle, with a lower bound at or below zero or without one: `Hurdle.cdf` is `1 - psi` below zero, so the normaliser misses the mass at zero; `Truncated(Hurdle(dist, psi))` has probabilities that add up to 1 / psi, and cdf(0) = 0 (C147).
* C148: samples of `Truncated(Censored(d, None, u), None, u)` have the law of `Truncated(d, None, u)` and samples of `Truncated(Hurdle(d, psi))` have no zeros, although `pdf` of the same objects reports the masses (C146, C147).

### Intervals and grids
* `eti(1)` of an unbounded discrete distribution raises OverflowError – `eti_whole_unbounded`.
* With ties the discrete HDI need not be shortest – `hdi_ties`.
* The discrete grid can contain upper + 1 – `xvals_outside`; it can have more than n_points values –
  `xvals_too_many`; the mode can be missed on long ranges – `discrete_mode_missed`.
* VonMises: an exception inside the interval computation leaves mu at 0 – `vonmises_failure`.
* `continuous_hdi` adds the mass of both censoring bounds to the mass of the interval, also when the interval excludes them, so `hdi()` of a censored distribution holds less than asked – `hdi_censored_wrong`, exact statement in `hdi_censored_mass`.
* C79: `plot_pointinterval` treats an interval with equal endpoints (plot_helper.py:111-125 compares with `<`) as one that wraps around a circle, so a discrete distribution whose interval is a single value gets a line over [v, π] and [−π, v]. Quantile levels given out of order are drawn the same way. An unknown interval kind ends in UnboundLocalError.
* C81: for supports of more than 201 values, `plot_cdf` and `plot_sf` evaluate a discrete distribution only at 200 integers and hold the value in between, so the curve misses the jumps at the skipped values (`long_steps_fail`). The two dashed lines at the point masses of a `Censored` both depend on the lower bound being in the grid (plot_helper.py:151-153), so a distribution censored only from above shows none.
* `hdi()` of a discrete distribution with 199 or more grid values minimises with an equality constraint on a step function: it can be met for countably many masses only (`hdi_long_infeasible`), and when it is met the interval has one value too many (`hdi_long_not_shortest`). (C90)
* C96: `plot` documents further keywords for all distributions; the plotting methods of Dirichlet and MvNormal take none (TypeError). `plot_cdf`, `plot_ppf`, `plot_sf` and `plot_isf` contain a loop over arrays of parameters that is never reached, since `valid_scalar_params` raises first. `plot_pdfpmf` pops `ls` and `marker` from a dictionary shared by all curves of a discrete distribution.
* `moments()` raises NotImplementedError on every hurdle distribution (no skewness, no kurtosis); `lmoments` does so for DiscreteWeibull, Categorical and all modified distributions, and its documented letter d is refused (C128).
* VonMises: if the arc contains the cut at π the first end of eti and hdi is the larger number. The values between the two numbers then have the complementary mass (`vonmises_between`). The plots draw the arc in that case (`vonmises_drawn`), but `summary` lists the two numbers as lower and upper.
* `hdi` of Uniform is not determined by its definition: every interval inside the support with length `mass * (upper - lower)` solves the minimisation (optimization.py:317-344), so what is reported depends on the optimiser and its starting point, the equal-tailed interval (`uniform_hdi_any`).

### Elicitation
* With a fixed statistic the checked quantity can vanish although the mass is wrong –
  `fixed_stat_error_cancels`.
* Ranking aborts with ZeroDivisionError if a candidate has exactly n − 1 parameters –
  `ranking_aborts`; below that the penalty is negative – `penalty_negative`.
* A rejected `maxent` request may already have changed the object – `rejected_request_changes_object`,
  `mode_rejection_changes_object`.
* Roulette: a click in the lower margin makes a count negative – `negative_chips`; the positions handed
  to the fit are half a step above the labels – `position_is_not_label`.
* Dirichlet elicitation never returns for some requests – `dirichlet_mode_hangs`.
* `match_moments` on arrays ignores the order of the letters and uses raw kurtosis –
  `match_array_order_ignored`, `match_array_kurtosis`; it accepts a non-finite moment next to a finite
  one – `match_accepts_nonfinite`.
* A slider for the value 0 ignores the support – `slider_range_outside`.
* Maximum-likelihood fits of constant or all-zero samples return inadmissible parameters –
  `normal_fit_constant`, `exponential_fit_zeros`, `uniform_fit_constant`; the Triangular fit always has
  likelihood zero – `triangular_fit_worst`, `triangular_fit_mode_outside`; the Binomial fit can have –
  `binomial_fit_impossible`.

* ExGaussian and SkewNormal give NaN for samples with large skewness – `exgaussian_fit_nan`,
  `skewnormal_start_nan`, `exgaussian_fit_spike`; the numerical likelihood fit uses the bounds of the
  displayed parameters for the canonical ones, so that Beta(mu, sigma), Beta(mu, nu) and
  AsymmetricLaplace(q) cannot reach the optimum – `ml_beta_capped`, `ml_beta_suboptimal`,
  `ml_asymlaplace_capped`.
* Silence is not success: `maxent` counts an integer below a non-integer lower bound –
  `maxent_silent_wrong` –,
  `quartile` with three wrong quartiles – `quartile_silent_wrong`; it warns about exact discrete
  quartiles – `quartile_discrete_warns`; `np.int64` bounds are reported as non-integers –
  `bounds_warn_wrong`.
* Roulette: changing the axis or the size of the grid removes all chips but leaves `dist` and `inputs` of the removed ones, which `combine_roulette` would use (`resize_keeps_dist`, `resize_not_reported`); deselecting all families sets `dist` to None and leaves the old curve on the axes (`deselect_keeps_curve`); the number boxes stop at 100, so a grid with more columns shrinks when the axis is changed (`large_grid_shrinks`); equal ends of the axis are only prevented for `x_min` (`axis_length`).
* `fit_to_quartile` compares families by the probability between q1 and q3 only: a family with the wrong median and tails wins over, or ties with, one that has exactly the quartiles (`median_not_compared`); for discrete families the error uses cdf(q1 - 1), wrong for q1 that is not an integer (`discrete_quartile_counts_below`); extra parameters for BetaScaled without both bounds raise KeyError (`betascaled_needs_bounds`); the text box with extra parameters of `QuartileInt` has no observer (`extra_not_observed`).
* `mle` tests a sample against the support the object has from an earlier fit: a Uniform fitted once keeps its parameters for a wider sample, without a warning (`mle_refit_stale`). PyMC variables are converted to objects the caller never sees, so their fits are lost (`mle_pymc_lost`).
* The argument `ax` of `maxent`, `quartile`, `mle` and `combine` is never used, and `match_moments`/`match_quantiles` overwrite it when the source is a distribution: with other axes active the ones passed stay empty (`maxent_ax_not_used`, `mle_default_plot`, `match_ax_not_used`).  From data the `match_*` functions use `ax` but return `None` in its place if it was not given (`match_plot_array`); `ax` inside `plot_kwargs` is a TypeError (`match_ax_keyword_fails`).
* `mle` and `combine` pass `plot_kwargs` by position, so that it becomes `moments`: every keyword of `plot_pdf` is a ValueError, after the fit (`mle_options_fail`).
* `maxent` and `quartile` colour the bounds like the last line, or the fourth last with `pointinterval`: for discrete distributions that is the grey baseline (`bounds_colour_discrete`), with one level too (`bounds_colour_one_level`), and without baseline on new axes there is no fourth last line (`one_level_fails`).
* `dirichlet_mode` documents that `plot_kwargs` goes to `plot_pdf`; line styles are a TypeError, the Dirichlet's `plot_pdf` takes no further keywords (`dirichlet_plot_fails`).
* `mle` on `TruncatedNormal(lower=0)` replaces the bound given by the user, first by the smallest observation and then by whatever the optimiser returns (C109).
* The warnings of `maxent` and `quartile` print 3 and 2 significant digits but fire at a relative error of 1e-4, so they may show the same numbers as requested and computed (`maxent_text_wrong`, `quartile_text_wrong`). `match_moments(..., "mm", [t])` ends in IndexError while composing the message (`moments_text_repeated`).
* `maxent` accepts `mass=1` for families with unbounded support, where no member has that mass on a bounded interval (`mass_one_unmet`); the runs are accepted with an absolute tolerance of 1e-4, so for a mass below it any wide enough member passes and is preferred to the optimum (`tiny_mass_unchecked`).
* maxent for Exponential, HalfNormal, HalfCauchy and HalfStudentT on an interval that starts above zero: the attainable mass is limited (`maxent(Exponential(), 1, 3, 0.9)`: no member has more than 38.5 % there), nothing tells the user before the optimisation, and the first completed run is returned (`exponential_reach`, `maxent_half_unmet`; the warning on the relative error follows from C27). Below the limit there are two members with the mass; the one with the larger entropy is returned only if a run ended there (`maxent_half_answer`).
* `maxent(..., fixed_stat=...)` (C119): `prob_bound` subtracts the distance of the statistic from the error of the mass, so the two may cancel. For every location-scale family and every target other than the centre of the interval there are units in which the check is passed exactly by a distribution with another location and a larger entropy, and no warning is given: `fixed_stat_units`, `fixed_stat_lost`. A target outside the interval with a mass of one half or more cannot be met at all, yet the check can be passed: `fixed_stat_outside`.
* The examples in the documentation of `quartile` (quartile.py:69-88) ask for the Gamma with quartiles 3, 6, 8 and the HalfStudentT(nu=7) with quartiles 2, 9, 12; neither exists (C121).
* match_quantiles with the default levels and a symmetric family returns the average of the three target quartiles as location; when the source is skewed none of its quartiles need be matched, in particular not the median (`match_default`).
* `match_moments` treats the mean and the variance in the same units (sum of squared differences). For a family with one parameter the result is dominated by the variance: for `match_moments(Normal(14, 1), Exponential())` the best fit has mean 2, for `Poisson()` it has mean 7.5 (C124, `match_mv_half`, `match_mv_line`), although `_fit_moments`, used as the starting point, would match the mean. The warning about the relative error is all the user sees.
* maxent for Uniform and Triangular has infinitely many solutions for every request (C125): the support has a definite length but its position (the mode, for Triangular) is left to the starting point of the optimiser. The documentation speaks of the distribution with the largest entropy.
* maxent for DiscreteUniform with the default mass 0.89 (C127): unless the interval holds at least 89 integers no distribution of the family passes the 1e-4 check, so the result is always that of the first optimisation run, with a mass that is off (`maxent_discrete_uniform_first`). The same holds for 0.9 and fewer than 9 integers.
* `maxent(Pareto(), l, u, p)` with p above 1-1/e and a wide interval (C129): the answer has its smallest value strictly above l, so part of the interval the user calls plausible gets no probability (p = 0.86 between 1 and 100: nothing below 13). With l = 0 and p at most 1-1/e no answer exists.
* With the scale given (`maxent(Normal(sigma=1), …)`) all candidates have the same entropy; the request has two mirror-image answers and the one returned depends only on where the first completed run of the optimiser ended (`scale_order_decides`). No warning is given.
* `maxent(LogNormal(), 0, u, mass)` and `maxent(LogLogistic(), 0, u, mass)` with a mass of one half or less ask for something that does not exist: distributions with that mass have entropies as large as one likes (`log_from_zero_none`). The code does not check for this; what it returns depends on where the optimiser stops.
* maxent for Pareto with alpha given and a mass below 1-(l/u)^alpha: of the two distributions with the mass, the one of largest entropy starts inside the interval at u(1-p)^(1/alpha), so the lower part of the elicited interval gets no probability (C135, pareto_alpha_given).
* The four perturbed starts of maxent multiply the moment-matched values, so a parameter matched to zero (the location for an interval symmetric about zero) starts at zero in all five runs; with no other free parameter the five runs are one (C136, starts_zero, maxent_all_zero).
* An exception in the first run of maxent is swallowed and shows as an IndexError of an empty list (C136, maxent_first_fails).
* `mle` of a TruncatedNormal leaves all four parameters free. For samples of two different values, and for all samples spread at least as much as the exponential law on their range with the same mean, there is no most likely TruncatedNormal: larger and larger `sigma` is better (`truncNormal_ml_iff`, `truncNormal_ml_better`). SkewStudentT has no most likely member for any sample (`skewStudent_ml_unbounded`), SkewNormal has none for two values (`skewNormal_ml_two`). Nothing of this is reported to the user.
* maxent for VonMises has no solution if the mass asked for is that of the uniform distribution on the circle, (u - l) / (2π) (C150): distributions of every kappa have it, so kappa runs to its lower bound. Below that mass the solution has its mode at the point opposite to the middle of the interval, not in the interval.
* quartile with a Geometric or a Bernoulli can never be met exactly: no distribution of the family has the three values as quartiles (C152), whatever they are. The warning compares only the mass between the outer values.

### Multivariate distributions and contours
* A contour for probability p can hold more – `contours_too_large`; cells of equal density all get the
  same level – `contours_uniform`; levels can repeat, which the plotting library refuses –
  `simplex_levels_repeat`; at the corners of the simplex the coordinates add up to more than one –
  `bary_corner_sum`.
* A singular covariance matrix is refused, although the distribution allows it – `mvnormal_singular`.
* C97: `plot_dirichlet` and `plot_mvnormal` use `fig` for the title, which is unbound when axes are given (and `legend="title"` is the default); one coordinate fails at `axes.flatten()`; fewer axes than coordinates lose the last ones silently.
* `MvNormal(...).plot_pdf(marginals=False)` uses a grid of fixed step 0.01 over three standard deviations: with a standard deviation of at most 1/600 an axis has a single value and `contour` raises (C100, `joint_normal_small`); with large ones the grid grows without bound.
* `MvNormal.mean()` calls the `mean` array of the frozen scipy object: a TypeError for every specified object (`mvnormal_mean_raises`); `xvals("restricted")`, and `xvals("full")` of an MvNormal, ask for a `ppf` that multivariate objects do not have (`multivariate_xvals_raise`).

### Settings, catalogue, cache
* `stats.ci_prob` accepts NaN – `nan_accepted`; any truthy non-bool is stored as False –
  `truthy_stored_false`; a failing multiple assignment keeps the items before the failure –
  `failed_update_prefix`; a context that fails to start leaks – `failed_start_leaks`; a context object
  applies when created – `context_object_applies_at_once`.
* Malformed lines and duplicate keys of the settings file raise TypeError – `malformed_line_raises`,
  `duplicate_key_raises`.
* `catalog.get` fails for six documented categories – `catalog_get_broken`, `catalog_names_broken`;
  `find` disagrees with the categories – `catalog_find_disagrees`.
* A compiled function that raises KeyError is compiled again at each call – `jit_keyerror_recompiles`.
* `summary`: swapped ends, NameError, `fmt="none"` refused – `summary_pair_swapped`,
  `summary_wrong_strings`; the name of a Hurdle lacks its base – `summary_name_hurdle`.
* `citations('maxent')`: the documentation allows a string, but the string is iterated over character by character and the result is an empty text without any error (`citations_string`); a citation of two keys in one role would end in an AttributeError (`citations_keys`). (C95)
* C98: `init_vals` has no entry for Hurdle, Mixture and MvNormal (KeyError in `plot_interactive` and in model functions). For Truncated and Censored `vals.update` overwrites the bounds when the base has parameters `lower`, `upper`. `Dirichlet.plot_interactive(kind="ppf")` draws the cdf. For Categorical the parameter name is cut at its first underscore, so `logit_p` fails.
* C102: `rc_context` changes the settings in `__init__`, `__enter__` does nothing: reusing a context object gives a second block with the original settings, and contexts left in the order of creation leave the settings of the first in force.
* The HTML table of a distribution and its `info()` compare the ends of the support with infinity, which fails (ValueError) when the ends are arrays, e.g. `Uniform([0, 1], [2, 3])` (`table_arrays_wrong`).
* `catalog.info` fails (TypeError) for the four modifiers, whose classes need arguments (`catalog_info_wrong`).

### PyMC, Bambi, predictive checks
* Components of a matrix-valued variable: IndexError – `matrix_components_fail`.
* Model text: a late hyperparent, a lost variable, three levels – `write_model_late_parent`,
  `write_model_lost_variable`, `write_model_three_levels`; unbalanced Bambi text –
  `bambi_refit_unbalanced`, `bambi_text_not_closed`.
* A given parameter next to a missing one is lost – `from_pymc_loses_given`.
* A shared list of new families reports the last variable's fit – `refit_shared_wrong`.
* `ppe` leaves the fresh symbol after an exception – `ppe_leaks`; the log level becomes an own level –
  `log_level_detached`.
* `ppa`: stuck with few unseen samples – `ppa_stuck`; clicking a blank panel raises –
  `ppa_blank_click`; the first display ignores the boundaries – `ppa_target_ignores_boundaries`.
* A name repeated in the model's return statement misaligns samples – `repeated_variable_misaligned`.
* Truncated HalfNormal and LogitNormal get the wrong arguments – `from_pymc_truncated_offset`; any
  mixture that starts with a point mass is read as zero inflation – `from_pymc_point_mass`.
* Inside a model context `to_pymc` of a modifier of a modified distribution fails (the base class is called with `params_dict`), although it is converted outside – `to_pymc_in_model_nested`.
* `to_bambi` of a Truncated, Censored or Hurdle does not name the base, and of a Mixture keeps only the last of equally named parameters – `to_bambi_ambiguous`.
* A vector-valued prior is fitted with one object, component after component (`back_fitting_pymc`, pymc_io.py:31-40). The families whose `_fit_moments` calls `optimize_mean_sigma` treat the values left by the first component as fixed, so `least_squares` has no free parameter and raises for the second (`backfit_vector_fails`). The same happens when "return prior" is pressed twice in `predictive_explorer`, or `mle` is called twice with one object (`second_fit_fails`).
* For a matrix-valued prior the loop runs over all components but indexes the first axis only, so it raises `IndexError` (`backfit_matrix_fails`).
* `Kumaraswamy._parametrization` tests `(a and b) is not None`, which raises for arrays, so two-dimensional samples cannot be fitted (`kumaraswamy_rows_fail`).
* `match_preliz_dist` joins the names in the order of `__all__`, with `Beta` before `BetaScaled` and `BetaBinomial`, and lets any text follow the name, so both are taken for Beta (`beta_taken`); their third and fourth arguments make `predictive_explorer` fail (`beta_label_fails`).
* `parse_arguments` counts positions in the call and ignores keywords (`keyword_label_fails`), splits at commas inside nested calls (`nested_comma_fails`), and a parameter that is no argument of a distribution makes `get_textboxes` fail with `KeyError` (`unused_parameter_fails`).
* `get_textboxes` sets `lower` instead of `upper` to infinity for `expit` of a probability (`probability_label_fails`).
* `ppa` takes the first `return` followed by a word, also in a docstring or comment, for the return statement (`docstring_return_fails`); a second assignment on the same line is stored under the text since the previous call (`same_line_fails`); `return (a, b)` stops with AttributeError (`no_return_fails`); a BetaScaled or BetaBinomial prior becomes a Beta (`beta_model_fails`).
* `dict_model` looks a Bambi prior up with `match.group(2)`, its arguments instead of its name: AttributeError for every prior that matches; when none matches the model is empty and `np.concatenate` raises ValueError (`bambi_never_returns`).
* C82: `ppe(..., random_state=...)` has no effect when the target is a single distribution, because round k samples with the seed k (optimization.py:364). Weights of several targets must already sum to one.
* `predictive_explorer` passes one `stats_kwargs` dictionary to all drawings and `plot_repr` adds to it with `setdefault`. After a curve the colour is a single string, so a histogram of several runs raises ValueError; after a histogram `bins`, `density` and `histtype` reach `ax.plot`, AttributeError; the bins of integer values stay those of the first drawing, so values of later drawings can be missing from the picture. (`hist_after_curve_fails`, `curve_after_hist_fails`, `second_hist_bins`)
* a histogram in `predictive_explorer` uses one colour per requested run; if a run is dropped because of a NaN, matplotlib raises ValueError (`hist_dropped_fails`). `group="prior"` without `var_name` looks for the observed variable among the priors, KeyError; the documentation promises the last free variable (`unnamed_prior_fails`). The `engine` argument is overwritten.
* `ppa`: three or more equal distances (or two equal ones of three) make the trimmed mean of the automatic selection NaN (`bound_equal_nan`, `bound_two_equal_nan`); with a target the nearest sample is never in the first display (`nearest_not_displayed`).
* Colours passed by the user for a histogram are dropped after the first drawing; the next one uses one grey per requested iteration and raises ValueError if runs were dropped (`hist_forgets_colours`). (C83)
* `ppe(..., new_families="auto")` adds the classes Normal, HalfNormal and Gamma instead of instances, so every scalar variable ends in a TypeError (`ppe_auto_fails`); an engine name other than auto, pymc and bambi ends in an UnboundLocalError after all fits (`engine_unchecked`). (C93)
* C97: `plot_pp_mean` decides with `np.any(selected)`: a selection of sample 0 alone counts as no selection. Unknown letters in `moments` are documented as ignored and raise ValueError. A numpy integer as `references` is a TypeError.
* `predictive_explorer` on Bambi models (agnostic.py:221): the keyword of a prior is ignored, the position of the argument decides the bounds shown; a prior with a decimal number, a negative number, an expression or a space before a comma is not found; a keyword called like a parameter of the function counts as a use of that parameter. (C107)
* `predictive_explorer`: Hurdle, Mixture and MvNormal have no entry in `init_vals` (distribution_helper.py:203-253) and raise KeyError as soon as a parameter of the model function is among their arguments; Truncated and Censored have entries without `dist` and raise TypeError. (C76)
* `predictive_explorer` documents an `engine` argument but overwrites it with the engine it recognises (predictive_explorer.py:66). (C108)
* A `#` inside a string of the model's source is taken for a comment (agnostic.py:111, 216): the rest of the line is lost and the parameters used there raise KeyError. (C108)
* After `ppa` has returned a prior, its figure has at most one panel; later displays of up to nine samples mark them as shown though they cannot be seen (`ppa_after_return`).
* `ppe` with a variable whose value variable has another number of values (simplex transformation of a Dirichlet) always fails in `reshape`: the shape is that of the transformed initial point (C137, `changed_length_fails`).
* `ppe` writes a complete text exactly when no hyperparameter was created after a hierarchical variable and hierarchies have two levels (C137, `ppe_text_iff`): `variables[i]` is indexed by the place among all free variables although only those without parents are in it.
* A free variable named like a transformed one (`my_var__`) makes `ppe` fail with an AttributeError (C137, `named_like_transformed`).

### Seen while reading, not modelled
* `Hurdle.ppf` with an integer-typed `q` array truncates; `Mixture` discrete `ppf` can be non-integer;
  `MvNormal.mean()` calls an array;
  `maxent(None, fixed_params=…)` raises AttributeError.
* `plot_decorator` (internal/plot_helper.py:477-504) is never used and could not work: it calls `plot_repr` with five of its six arguments.
* zi_binomial.py:34 documents the support as all natural numbers; the mass function is positive on {0..n} only.  The documentation plot (27-31) zips `ns, ps, psis` in the order psi, n, p.
* hypergeometric.py documents a variance with N - 1 in the denominator: for N = 1 it is 0/0 where the variance is 0 (`hypergeometric_documented`).
* The documented mean of LogLogistic (loglogistic.py:39) has no restriction on `beta`; for `beta` at most 1 there is no mean (`loglogistic_no_moment`), and the formula is negative at 2/3 (`loglogistic_doc_negative`).
* VonMises documents the mean `mu` (vonmises.py:38). That is the mean direction; the mean of the law on the interval is `mu` only for `mu = 0` (`vonmises_line_mean`).
* `mle` of a StudentT fits `nu`, `mu` and `sigma` together. The likelihood of any sample is unbounded in these (`mu` at an observation, small `nu`, `sigma` to zero), so there is no most likely distribution and the result of the optimiser is a local optimum or lies on the bounds (`student_ml_none`); the same for HalfStudentT if the sample contains a zero (`halfStudent_ml_unbounded`). For constant samples this holds for ten more families (`ml_constant`), and `mle` does not warn.
* `mle` for BetaScaled leaves both bounds free, so that the likelihood of every sample is unbounded (`betaScaled_ml_unbounded`, C140); for NegativeBinomial and a sample whose variance does not exceed its mean, `alpha` grows without limit (`negBinomial_larger`).  Nothing is reported in either case.







