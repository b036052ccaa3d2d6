import Verif.Model.Param
import Mathlib.Data.EReal.Basic

/-!
# How the methods of the univariate families call the numerical library

Every method (`pdf`, `cdf`, …) passes attributes of the object to a compiled wrapper of the
module, which passes its
parameters to a function of `pytensor_distributions`.  The table lists every such call;
Categorical (vector parameter)
and the families that are modifiers (Truncated, Censored, Hurdle, Mixture) are not in it.
-/

namespace Verif.Delegate
open Verif

/-- the identifiers that occur: attributes, parameters of methods and wrappers, keywords -/
inductive Id
  | N | a | alpha | b | beta | c | k | kappa | lam | lower | m | mu
  | n | nu | p | psi | q | random_state | rng | s | sigma | size | upper | x
  deriving DecidableEq

def Id.name : Id → String
  | .N => "N"
  | .a => "a"
  | .alpha => "alpha"
  | .b => "b"
  | .beta => "beta"
  | .c => "c"
  | .k => "k"
  | .kappa => "kappa"
  | .lam => "lam"
  | .lower => "lower"
  | .m => "m"
  | .mu => "mu"
  | .n => "n"
  | .nu => "nu"
  | .p => "p"
  | .psi => "psi"
  | .q => "q"
  | .random_state => "random_state"
  | .rng => "rng"
  | .s => "s"
  | .sigma => "sigma"
  | .size => "size"
  | .upper => "upper"
  | .x => "x"

inductive Meth
  | pdf | cdf | ppf | logpdf | entropy | median | mean | mode | var | std
  | skewness | kurtosis | lmoment1 | lmoment2 | lmoment3 | lmoment4 | rvs | sf | isf | logcdf
  | logsf | logisf
  deriving DecidableEq

/-- an argument of a call in a method: a parameter of the method or an attribute of the object -/
inductive Arg
  | own (i : Id)
  | attr (i : Id)
  deriving DecidableEq

/-- one method: its parameters besides `self`, the arguments it passes to the wrapper, the
parameters of the wrapper, and
the function of the library with the arguments it gets.  `rvs` first replaces `random_state` by
`np.random.default_rng(random_state)`; what the zero-inflated families do to the result of `pdf`
is `ziPdf` below. -/
structure Row where
  meth : Meth
  own : List Id
  call : List Arg
  kw : List (Id × Arg)
  params : List Id
  ext : Meth
  extArgs : List Id
  extKw : List (Id × Id)

structure Wiring where
  family : Param.Family
  module : String
  rows : List Row

/-- asymmetric_laplace.py:104-154 and 166-248 -/
def wAsymmetricLaplace : Wiring := ⟨.asymmetricLaplace, "asymmetriclaplace", [
  ⟨.pdf, [.x], [.own .x, .attr .mu, .attr .b, .attr .kappa], [], [.x, .mu, .b, .kappa], .pdf, [.x,
    .mu, .b, .kappa], []⟩,
  ⟨.cdf, [.x], [.own .x, .attr .mu, .attr .b, .attr .kappa], [], [.x, .mu, .b, .kappa], .cdf, [.x,
    .mu, .b, .kappa], []⟩,
  ⟨.ppf, [.q], [.own .q, .attr .mu, .attr .b, .attr .kappa], [], [.q, .mu, .b, .kappa], .ppf, [.q,
    .mu, .b, .kappa], []⟩,
  ⟨.logpdf, [.x], [.own .x, .attr .mu, .attr .b, .attr .kappa], [], [.x, .mu, .b, .kappa],
    .logpdf, [.x, .mu, .b, .kappa], []⟩,
  ⟨.entropy, [], [.attr .mu, .attr .b, .attr .kappa], [], [.mu, .b, .kappa], .entropy, [.mu, .b,
    .kappa], []⟩,
  ⟨.median, [], [.attr .mu, .attr .b, .attr .kappa], [], [.mu, .b, .kappa], .median, [.mu, .b,
    .kappa], []⟩,
  ⟨.mean, [], [.attr .mu, .attr .b, .attr .kappa], [], [.mu, .b, .kappa], .mean, [.mu, .b,
    .kappa], []⟩,
  ⟨.mode, [], [.attr .mu, .attr .b, .attr .kappa], [], [.mu, .b, .kappa], .mode, [.mu, .b,
    .kappa], []⟩,
  ⟨.var, [], [.attr .mu, .attr .b, .attr .kappa], [], [.mu, .b, .kappa], .var, [.mu, .b, .kappa],
    []⟩,
  ⟨.std, [], [.attr .mu, .attr .b, .attr .kappa], [], [.mu, .b, .kappa], .std, [.mu, .b, .kappa],
    []⟩,
  ⟨.skewness, [], [.attr .mu, .attr .b, .attr .kappa], [], [.mu, .b, .kappa], .skewness, [.mu, .b,
    .kappa], []⟩,
  ⟨.kurtosis, [], [.attr .mu, .attr .b, .attr .kappa], [], [.mu, .b, .kappa], .kurtosis, [.mu, .b,
    .kappa], []⟩,
  ⟨.lmoment1, [], [.attr .mu, .attr .b, .attr .kappa], [], [.mu, .b, .kappa], .lmoment1, [.mu, .b,
    .kappa], []⟩,
  ⟨.lmoment2, [], [.attr .mu, .attr .b, .attr .kappa], [], [.mu, .b, .kappa], .lmoment2, [.mu, .b,
    .kappa], []⟩,
  ⟨.lmoment3, [], [.attr .mu, .attr .b, .attr .kappa], [], [.mu, .b, .kappa], .lmoment3, [.mu, .b,
    .kappa], []⟩,
  ⟨.lmoment4, [], [.attr .mu, .attr .b, .attr .kappa], [], [.mu, .b, .kappa], .lmoment4, [.mu, .b,
    .kappa], []⟩,
  ⟨.rvs, [.size, .random_state], [.attr .mu, .attr .b, .attr .kappa], [(.size, .own .size), (.rng,
    .own .random_state)], [.mu, .b, .kappa, .size, .rng], .rvs, [.mu, .b, .kappa], [(.size,
    .size), (.random_state, .rng)]⟩]⟩

/-- bernoulli.py:97-147 and 150-232 -/
def wBernoulli : Wiring := ⟨.bernoulli, "bernoulli", [
  ⟨.pdf, [.x], [.own .x, .attr .p], [], [.x, .p], .pdf, [.x, .p], []⟩,
  ⟨.cdf, [.x], [.own .x, .attr .p], [], [.x, .p], .cdf, [.x, .p], []⟩,
  ⟨.ppf, [.q], [.own .q, .attr .p], [], [.q, .p], .ppf, [.q, .p], []⟩,
  ⟨.logpdf, [.x], [.own .x, .attr .p], [], [.x, .p], .logpdf, [.x, .p], []⟩,
  ⟨.entropy, [], [.attr .p], [], [.p], .entropy, [.p], []⟩,
  ⟨.mean, [], [.attr .p], [], [.p], .mean, [.p], []⟩,
  ⟨.mode, [], [.attr .p], [], [.p], .mode, [.p], []⟩,
  ⟨.median, [], [.attr .p], [], [.p], .median, [.p], []⟩,
  ⟨.var, [], [.attr .p], [], [.p], .var, [.p], []⟩,
  ⟨.std, [], [.attr .p], [], [.p], .std, [.p], []⟩,
  ⟨.skewness, [], [.attr .p], [], [.p], .skewness, [.p], []⟩,
  ⟨.kurtosis, [], [.attr .p], [], [.p], .kurtosis, [.p], []⟩,
  ⟨.lmoment1, [], [.attr .p], [], [.p], .lmoment1, [.p], []⟩,
  ⟨.lmoment2, [], [.attr .p], [], [.p], .lmoment2, [.p], []⟩,
  ⟨.lmoment3, [], [.attr .p], [], [.p], .lmoment3, [.p], []⟩,
  ⟨.lmoment4, [], [.attr .p], [], [.p], .lmoment4, [.p], []⟩,
  ⟨.rvs, [.size, .random_state], [.attr .p], [(.size, .own .size), (.rng, .own .random_state)],
    [.p, .size, .rng], .rvs, [.p], [(.size, .size), (.random_state, .rng)]⟩]⟩

/-- beta.py:153-218 and 221-328 -/
def wBeta : Wiring := ⟨.beta, "beta", [
  ⟨.pdf, [.x], [.own .x, .attr .alpha, .attr .beta], [], [.x, .alpha, .beta], .pdf, [.x, .alpha,
    .beta], []⟩,
  ⟨.cdf, [.x], [.own .x, .attr .alpha, .attr .beta], [], [.x, .alpha, .beta], .cdf, [.x, .alpha,
    .beta], []⟩,
  ⟨.ppf, [.q], [.own .q, .attr .alpha, .attr .beta], [], [.q, .alpha, .beta], .ppf, [.q, .alpha,
    .beta], []⟩,
  ⟨.sf, [.x], [.own .x, .attr .alpha, .attr .beta], [], [.x, .alpha, .beta], .sf, [.x, .alpha,
    .beta], []⟩,
  ⟨.isf, [.q], [.own .q, .attr .alpha, .attr .beta], [], [.q, .alpha, .beta], .isf, [.q, .alpha,
    .beta], []⟩,
  ⟨.logpdf, [.x], [.own .x, .attr .alpha, .attr .beta], [], [.x, .alpha, .beta], .logpdf, [.x,
    .alpha, .beta], []⟩,
  ⟨.logcdf, [.x], [.own .x, .attr .alpha, .attr .beta], [], [.x, .alpha, .beta], .logcdf, [.x,
    .alpha, .beta], []⟩,
  ⟨.logsf, [.x], [.own .x, .attr .alpha, .attr .beta], [], [.x, .alpha, .beta], .logsf, [.x,
    .alpha, .beta], []⟩,
  ⟨.logisf, [.q], [.own .q, .attr .alpha, .attr .beta], [], [.q, .alpha, .beta], .logisf, [.q,
    .alpha, .beta], []⟩,
  ⟨.entropy, [], [.attr .alpha, .attr .beta], [], [.alpha, .beta], .entropy, [.alpha, .beta], []⟩,
  ⟨.mean, [], [.attr .alpha, .attr .beta], [], [.alpha, .beta], .mean, [.alpha, .beta], []⟩,
  ⟨.mode, [], [.attr .alpha, .attr .beta], [], [.alpha, .beta], .mode, [.alpha, .beta], []⟩,
  ⟨.median, [], [.attr .alpha, .attr .beta], [], [.alpha, .beta], .median, [.alpha, .beta], []⟩,
  ⟨.var, [], [.attr .alpha, .attr .beta], [], [.alpha, .beta], .var, [.alpha, .beta], []⟩,
  ⟨.std, [], [.attr .alpha, .attr .beta], [], [.alpha, .beta], .std, [.alpha, .beta], []⟩,
  ⟨.skewness, [], [.attr .alpha, .attr .beta], [], [.alpha, .beta], .skewness, [.alpha, .beta], []⟩,
  ⟨.kurtosis, [], [.attr .alpha, .attr .beta], [], [.alpha, .beta], .kurtosis, [.alpha, .beta], []⟩,
  ⟨.lmoment1, [], [.attr .alpha, .attr .beta], [], [.alpha, .beta], .lmoment1, [.alpha, .beta], []⟩,
  ⟨.lmoment2, [], [.attr .alpha, .attr .beta], [], [.alpha, .beta], .lmoment2, [.alpha, .beta], []⟩,
  ⟨.lmoment3, [], [.attr .alpha, .attr .beta], [], [.alpha, .beta], .lmoment3, [.alpha, .beta], []⟩,
  ⟨.lmoment4, [], [.attr .alpha, .attr .beta], [], [.alpha, .beta], .lmoment4, [.alpha, .beta], []⟩,
  ⟨.rvs, [.size, .random_state], [.attr .alpha, .attr .beta], [(.size, .own .size), (.rng,
    .own .random_state)], [.alpha, .beta, .size, .rng], .rvs, [.alpha, .beta], [(.size, .size),
    (.random_state, .rng)]⟩]⟩

/-- betabinomial.py:77-127 and 136-218 -/
def wBetaBinomial : Wiring := ⟨.simple .betaBinomial, "betabinomial", [
  ⟨.pdf, [.x], [.own .x, .attr .n, .attr .alpha, .attr .beta], [], [.x, .n, .alpha, .beta], .pdf,
    [.x, .n, .alpha, .beta], []⟩,
  ⟨.cdf, [.x], [.own .x, .attr .n, .attr .alpha, .attr .beta], [], [.x, .n, .alpha, .beta], .cdf,
    [.x, .n, .alpha, .beta], []⟩,
  ⟨.ppf, [.q], [.own .q, .attr .n, .attr .alpha, .attr .beta], [], [.q, .n, .alpha, .beta], .ppf,
    [.q, .n, .alpha, .beta], []⟩,
  ⟨.logpdf, [.x], [.own .x, .attr .n, .attr .alpha, .attr .beta], [], [.x, .n, .alpha, .beta],
    .logpdf, [.x, .n, .alpha, .beta], []⟩,
  ⟨.entropy, [], [.attr .n, .attr .alpha, .attr .beta], [], [.n, .alpha, .beta], .entropy, [.n,
    .alpha, .beta], []⟩,
  ⟨.mean, [], [.attr .n, .attr .alpha, .attr .beta], [], [.n, .alpha, .beta], .mean, [.n, .alpha,
    .beta], []⟩,
  ⟨.mode, [], [.attr .n, .attr .alpha, .attr .beta], [], [.n, .alpha, .beta], .mode, [.n, .alpha,
    .beta], []⟩,
  ⟨.median, [], [.attr .n, .attr .alpha, .attr .beta], [], [.n, .alpha, .beta], .median, [.n,
    .alpha, .beta], []⟩,
  ⟨.var, [], [.attr .n, .attr .alpha, .attr .beta], [], [.n, .alpha, .beta], .var, [.n, .alpha,
    .beta], []⟩,
  ⟨.std, [], [.attr .n, .attr .alpha, .attr .beta], [], [.n, .alpha, .beta], .std, [.n, .alpha,
    .beta], []⟩,
  ⟨.skewness, [], [.attr .n, .attr .alpha, .attr .beta], [], [.n, .alpha, .beta], .skewness, [.n,
    .alpha, .beta], []⟩,
  ⟨.kurtosis, [], [.attr .n, .attr .alpha, .attr .beta], [], [.n, .alpha, .beta], .kurtosis, [.n,
    .alpha, .beta], []⟩,
  ⟨.lmoment1, [], [.attr .n, .attr .alpha, .attr .beta], [], [.n, .alpha, .beta], .lmoment1, [.n,
    .alpha, .beta], []⟩,
  ⟨.lmoment2, [], [.attr .n, .attr .alpha, .attr .beta], [], [.n, .alpha, .beta], .lmoment2, [.n,
    .alpha, .beta], []⟩,
  ⟨.lmoment3, [], [.attr .n, .attr .alpha, .attr .beta], [], [.n, .alpha, .beta], .lmoment3, [.n,
    .alpha, .beta], []⟩,
  ⟨.lmoment4, [], [.attr .n, .attr .alpha, .attr .beta], [], [.n, .alpha, .beta], .lmoment4, [.n,
    .alpha, .beta], []⟩,
  ⟨.rvs, [.size, .random_state], [.attr .n, .attr .alpha, .attr .beta], [(.size, .own .size),
    (.rng, .own .random_state)], [.n, .alpha, .beta, .size, .rng], .rvs, [.n, .alpha, .beta],
    [(.size, .size), (.random_state, .rng)]⟩]⟩

/-- betascaled.py:111-176 and 179-286 -/
def wBetaScaled : Wiring := ⟨.betaScaled, "betascaled", [
  ⟨.pdf, [.x], [.own .x, .attr .alpha, .attr .beta, .attr .lower, .attr .upper], [], [.x, .alpha,
    .beta, .lower, .upper], .pdf, [.x, .alpha, .beta, .lower, .upper], []⟩,
  ⟨.cdf, [.x], [.own .x, .attr .alpha, .attr .beta, .attr .lower, .attr .upper], [], [.x, .alpha,
    .beta, .lower, .upper], .cdf, [.x, .alpha, .beta, .lower, .upper], []⟩,
  ⟨.ppf, [.q], [.own .q, .attr .alpha, .attr .beta, .attr .lower, .attr .upper], [], [.q, .alpha,
    .beta, .lower, .upper], .ppf, [.q, .alpha, .beta, .lower, .upper], []⟩,
  ⟨.sf, [.x], [.own .x, .attr .alpha, .attr .beta, .attr .lower, .attr .upper], [], [.x, .alpha,
    .beta, .lower, .upper], .sf, [.x, .alpha, .beta, .lower, .upper], []⟩,
  ⟨.isf, [.q], [.own .q, .attr .alpha, .attr .beta, .attr .lower, .attr .upper], [], [.q, .alpha,
    .beta, .lower, .upper], .isf, [.q, .alpha, .beta, .lower, .upper], []⟩,
  ⟨.logpdf, [.x], [.own .x, .attr .alpha, .attr .beta, .attr .lower, .attr .upper], [], [.x,
    .alpha, .beta, .lower, .upper], .logpdf, [.x, .alpha, .beta, .lower, .upper], []⟩,
  ⟨.logcdf, [.x], [.own .x, .attr .alpha, .attr .beta, .attr .lower, .attr .upper], [], [.x,
    .alpha, .beta, .lower, .upper], .logcdf, [.x, .alpha, .beta, .lower, .upper], []⟩,
  ⟨.logsf, [.x], [.own .x, .attr .alpha, .attr .beta, .attr .lower, .attr .upper], [], [.x,
    .alpha, .beta, .lower, .upper], .logsf, [.x, .alpha, .beta, .lower, .upper], []⟩,
  ⟨.logisf, [.q], [.own .q, .attr .alpha, .attr .beta, .attr .lower, .attr .upper], [], [.q,
    .alpha, .beta, .lower, .upper], .logisf, [.q, .alpha, .beta, .lower, .upper], []⟩,
  ⟨.entropy, [], [.attr .alpha, .attr .beta, .attr .lower, .attr .upper], [], [.alpha, .beta,
    .lower, .upper], .entropy, [.alpha, .beta, .lower, .upper], []⟩,
  ⟨.mean, [], [.attr .alpha, .attr .beta, .attr .lower, .attr .upper], [], [.alpha, .beta, .lower,
    .upper], .mean, [.alpha, .beta, .lower, .upper], []⟩,
  ⟨.mode, [], [.attr .alpha, .attr .beta, .attr .lower, .attr .upper], [], [.alpha, .beta, .lower,
    .upper], .mode, [.alpha, .beta, .lower, .upper], []⟩,
  ⟨.median, [], [.attr .alpha, .attr .beta, .attr .lower, .attr .upper], [], [.alpha, .beta,
    .lower, .upper], .median, [.alpha, .beta, .lower, .upper], []⟩,
  ⟨.var, [], [.attr .alpha, .attr .beta, .attr .lower, .attr .upper], [], [.alpha, .beta, .lower,
    .upper], .var, [.alpha, .beta, .lower, .upper], []⟩,
  ⟨.std, [], [.attr .alpha, .attr .beta, .attr .lower, .attr .upper], [], [.alpha, .beta, .lower,
    .upper], .std, [.alpha, .beta, .lower, .upper], []⟩,
  ⟨.skewness, [], [.attr .alpha, .attr .beta, .attr .lower, .attr .upper], [], [.alpha, .beta,
    .lower, .upper], .skewness, [.alpha, .beta, .lower, .upper], []⟩,
  ⟨.kurtosis, [], [.attr .alpha, .attr .beta, .attr .lower, .attr .upper], [], [.alpha, .beta,
    .lower, .upper], .kurtosis, [.alpha, .beta, .lower, .upper], []⟩,
  ⟨.lmoment1, [], [.attr .alpha, .attr .beta, .attr .lower, .attr .upper], [], [.alpha, .beta,
    .lower, .upper], .lmoment1, [.alpha, .beta, .lower, .upper], []⟩,
  ⟨.lmoment2, [], [.attr .alpha, .attr .beta, .attr .lower, .attr .upper], [], [.alpha, .beta,
    .lower, .upper], .lmoment2, [.alpha, .beta, .lower, .upper], []⟩,
  ⟨.lmoment3, [], [.attr .alpha, .attr .beta, .attr .lower, .attr .upper], [], [.alpha, .beta,
    .lower, .upper], .lmoment3, [.alpha, .beta, .lower, .upper], []⟩,
  ⟨.lmoment4, [], [.attr .alpha, .attr .beta, .attr .lower, .attr .upper], [], [.alpha, .beta,
    .lower, .upper], .lmoment4, [.alpha, .beta, .lower, .upper], []⟩,
  ⟨.rvs, [.size, .random_state], [.attr .alpha, .attr .beta, .attr .lower, .attr .upper], [(.size,
    .own .size), (.rng, .own .random_state)], [.alpha, .beta, .lower, .upper, .size, .rng], .rvs,
    [.alpha, .beta, .lower, .upper], [(.size, .size), (.random_state, .rng)]⟩]⟩

/-- binomial.py:80-130 and 143-225 -/
def wBinomial : Wiring := ⟨.simple .binomial, "binomial", [
  ⟨.pdf, [.x], [.own .x, .attr .n, .attr .p], [], [.x, .n, .p], .pdf, [.x, .n, .p], []⟩,
  ⟨.cdf, [.x], [.own .x, .attr .n, .attr .p], [], [.x, .n, .p], .cdf, [.x, .n, .p], []⟩,
  ⟨.ppf, [.q], [.own .q, .attr .n, .attr .p], [], [.q, .n, .p], .ppf, [.q, .n, .p], []⟩,
  ⟨.logpdf, [.x], [.own .x, .attr .n, .attr .p], [], [.x, .n, .p], .logpdf, [.x, .n, .p], []⟩,
  ⟨.entropy, [], [.attr .n, .attr .p], [], [.n, .p], .entropy, [.n, .p], []⟩,
  ⟨.mean, [], [.attr .n, .attr .p], [], [.n, .p], .mean, [.n, .p], []⟩,
  ⟨.mode, [], [.attr .n, .attr .p], [], [.n, .p], .mode, [.n, .p], []⟩,
  ⟨.median, [], [.attr .n, .attr .p], [], [.n, .p], .median, [.n, .p], []⟩,
  ⟨.var, [], [.attr .n, .attr .p], [], [.n, .p], .var, [.n, .p], []⟩,
  ⟨.std, [], [.attr .n, .attr .p], [], [.n, .p], .std, [.n, .p], []⟩,
  ⟨.skewness, [], [.attr .n, .attr .p], [], [.n, .p], .skewness, [.n, .p], []⟩,
  ⟨.kurtosis, [], [.attr .n, .attr .p], [], [.n, .p], .kurtosis, [.n, .p], []⟩,
  ⟨.lmoment1, [], [.attr .n, .attr .p], [], [.n, .p], .lmoment1, [.n, .p], []⟩,
  ⟨.lmoment2, [], [.attr .n, .attr .p], [], [.n, .p], .lmoment2, [.n, .p], []⟩,
  ⟨.lmoment3, [], [.attr .n, .attr .p], [], [.n, .p], .lmoment3, [.n, .p], []⟩,
  ⟨.lmoment4, [], [.attr .n, .attr .p], [], [.n, .p], .lmoment4, [.n, .p], []⟩,
  ⟨.rvs, [.size, .random_state], [.attr .n, .attr .p], [(.size, .own .size), (.rng,
    .own .random_state)], [.n, .p, .size, .rng], .rvs, [.n, .p], [(.size, .size), (.random_state,
    .rng)]⟩]⟩

/-- cauchy.py:65-121 and 130-222 -/
def wCauchy : Wiring := ⟨.simple .cauchy, "cauchy", [
  ⟨.pdf, [.x], [.own .x, .attr .alpha, .attr .beta], [], [.x, .alpha, .beta], .pdf, [.x, .alpha,
    .beta], []⟩,
  ⟨.cdf, [.x], [.own .x, .attr .alpha, .attr .beta], [], [.x, .alpha, .beta], .cdf, [.x, .alpha,
    .beta], []⟩,
  ⟨.ppf, [.q], [.own .q, .attr .alpha, .attr .beta], [], [.q, .alpha, .beta], .ppf, [.q, .alpha,
    .beta], []⟩,
  ⟨.logpdf, [.x], [.own .x, .attr .alpha, .attr .beta], [], [.x, .alpha, .beta], .logpdf, [.x,
    .alpha, .beta], []⟩,
  ⟨.entropy, [], [.attr .alpha, .attr .beta], [], [.alpha, .beta], .entropy, [.alpha, .beta], []⟩,
  ⟨.mean, [], [.attr .alpha, .attr .beta], [], [.alpha, .beta], .mean, [.alpha, .beta], []⟩,
  ⟨.mode, [], [.attr .alpha, .attr .beta], [], [.alpha, .beta], .mode, [.alpha, .beta], []⟩,
  ⟨.median, [], [.attr .alpha, .attr .beta], [], [.alpha, .beta], .median, [.alpha, .beta], []⟩,
  ⟨.var, [], [.attr .alpha, .attr .beta], [], [.alpha, .beta], .var, [.alpha, .beta], []⟩,
  ⟨.std, [], [.attr .alpha, .attr .beta], [], [.alpha, .beta], .std, [.alpha, .beta], []⟩,
  ⟨.skewness, [], [.attr .alpha, .attr .beta], [], [.alpha, .beta], .skewness, [.alpha, .beta], []⟩,
  ⟨.kurtosis, [], [.attr .alpha, .attr .beta], [], [.alpha, .beta], .kurtosis, [.alpha, .beta], []⟩,
  ⟨.lmoment1, [], [.attr .alpha, .attr .beta], [], [.alpha, .beta], .lmoment1, [.alpha, .beta], []⟩,
  ⟨.lmoment2, [], [.attr .alpha, .attr .beta], [], [.alpha, .beta], .lmoment2, [.alpha, .beta], []⟩,
  ⟨.lmoment3, [], [.attr .alpha, .attr .beta], [], [.alpha, .beta], .lmoment3, [.alpha, .beta], []⟩,
  ⟨.lmoment4, [], [.attr .alpha, .attr .beta], [], [.alpha, .beta], .lmoment4, [.alpha, .beta], []⟩,
  ⟨.logcdf, [.x], [.own .x, .attr .alpha, .attr .beta], [], [.x, .alpha, .beta], .logcdf, [.x,
    .alpha, .beta], []⟩,
  ⟨.logsf, [.x], [.own .x, .attr .alpha, .attr .beta], [], [.x, .alpha, .beta], .logsf, [.x,
    .alpha, .beta], []⟩,
  ⟨.rvs, [.size, .random_state], [.attr .alpha, .attr .beta], [(.size, .own .size), (.rng,
    .own .random_state)], [.alpha, .beta, .size, .rng], .rvs, [.alpha, .beta], [(.size, .size),
    (.random_state, .rng)]⟩]⟩

/-- chi_squared.py:62-112 and 121-203 -/
def wChiSquared : Wiring := ⟨.simple .chiSquared, "chisquared", [
  ⟨.pdf, [.x], [.own .x, .attr .nu], [], [.x, .nu], .pdf, [.x, .nu], []⟩,
  ⟨.cdf, [.x], [.own .x, .attr .nu], [], [.x, .nu], .cdf, [.x, .nu], []⟩,
  ⟨.ppf, [.q], [.own .q, .attr .nu], [], [.q, .nu], .ppf, [.q, .nu], []⟩,
  ⟨.logpdf, [.x], [.own .x, .attr .nu], [], [.x, .nu], .logpdf, [.x, .nu], []⟩,
  ⟨.entropy, [], [.attr .nu], [], [.nu], .entropy, [.nu], []⟩,
  ⟨.mean, [], [.attr .nu], [], [.nu], .mean, [.nu], []⟩,
  ⟨.mode, [], [.attr .nu], [], [.nu], .mode, [.nu], []⟩,
  ⟨.median, [], [.attr .nu], [], [.nu], .median, [.nu], []⟩,
  ⟨.var, [], [.attr .nu], [], [.nu], .var, [.nu], []⟩,
  ⟨.std, [], [.attr .nu], [], [.nu], .std, [.nu], []⟩,
  ⟨.skewness, [], [.attr .nu], [], [.nu], .skewness, [.nu], []⟩,
  ⟨.kurtosis, [], [.attr .nu], [], [.nu], .kurtosis, [.nu], []⟩,
  ⟨.lmoment1, [], [.attr .nu], [], [.nu], .lmoment1, [.nu], []⟩,
  ⟨.lmoment2, [], [.attr .nu], [], [.nu], .lmoment2, [.nu], []⟩,
  ⟨.lmoment3, [], [.attr .nu], [], [.nu], .lmoment3, [.nu], []⟩,
  ⟨.lmoment4, [], [.attr .nu], [], [.nu], .lmoment4, [.nu], []⟩,
  ⟨.rvs, [.size, .random_state], [.attr .nu], [(.size, .own .size), (.rng, .own .random_state)],
    [.nu, .size, .rng], .rvs, [.nu], [(.size, .size), (.random_state, .rng)]⟩]⟩

/-- discrete_uniform.py:72-122 and 136-218 -/
def wDiscreteUniform : Wiring := ⟨.simple .discreteUniform, "discreteuniform", [
  ⟨.pdf, [.x], [.own .x, .attr .lower, .attr .upper], [], [.x, .lower, .upper], .pdf, [.x, .lower,
    .upper], []⟩,
  ⟨.cdf, [.x], [.own .x, .attr .lower, .attr .upper], [], [.x, .lower, .upper], .cdf, [.x, .lower,
    .upper], []⟩,
  ⟨.ppf, [.q], [.own .q, .attr .lower, .attr .upper], [], [.q, .lower, .upper], .ppf, [.q, .lower,
    .upper], []⟩,
  ⟨.logpdf, [.x], [.own .x, .attr .lower, .attr .upper], [], [.x, .lower, .upper], .logpdf, [.x,
    .lower, .upper], []⟩,
  ⟨.entropy, [], [.attr .lower, .attr .upper], [], [.lower, .upper], .entropy, [.lower, .upper],
    []⟩,
  ⟨.mean, [], [.attr .lower, .attr .upper], [], [.lower, .upper], .mean, [.lower, .upper], []⟩,
  ⟨.mode, [], [.attr .lower, .attr .upper], [], [.lower, .upper], .mode, [.lower, .upper], []⟩,
  ⟨.median, [], [.attr .lower, .attr .upper], [], [.lower, .upper], .median, [.lower, .upper], []⟩,
  ⟨.var, [], [.attr .lower, .attr .upper], [], [.lower, .upper], .var, [.lower, .upper], []⟩,
  ⟨.std, [], [.attr .lower, .attr .upper], [], [.lower, .upper], .std, [.lower, .upper], []⟩,
  ⟨.skewness, [], [.attr .lower, .attr .upper], [], [.lower, .upper], .skewness, [.lower, .upper],
    []⟩,
  ⟨.kurtosis, [], [.attr .lower, .attr .upper], [], [.lower, .upper], .kurtosis, [.lower, .upper],
    []⟩,
  ⟨.lmoment1, [], [.attr .lower, .attr .upper], [], [.lower, .upper], .lmoment1, [.lower, .upper],
    []⟩,
  ⟨.lmoment2, [], [.attr .lower, .attr .upper], [], [.lower, .upper], .lmoment2, [.lower, .upper],
    []⟩,
  ⟨.lmoment3, [], [.attr .lower, .attr .upper], [], [.lower, .upper], .lmoment3, [.lower, .upper],
    []⟩,
  ⟨.lmoment4, [], [.attr .lower, .attr .upper], [], [.lower, .upper], .lmoment4, [.lower, .upper],
    []⟩,
  ⟨.rvs, [.size, .random_state], [.attr .lower, .attr .upper], [(.size, .own .size), (.rng,
    .own .random_state)], [.lower, .upper, .size, .rng], .rvs, [.lower, .upper], [(.size, .size),
    (.random_state, .rng)]⟩]⟩

/-- discrete_weibull.py:69-107 and 116-178 -/
def wDiscreteWeibull : Wiring := ⟨.simple .discreteWeibull, "discreteweibull", [
  ⟨.pdf, [.x], [.own .x, .attr .q, .attr .beta], [], [.x, .q, .beta], .pdf, [.x, .q, .beta], []⟩,
  ⟨.cdf, [.x], [.own .x, .attr .q, .attr .beta], [], [.x, .q, .beta], .cdf, [.x, .q, .beta], []⟩,
  ⟨.ppf, [.q], [.own .q, .attr .q, .attr .beta], [], [.p, .q, .beta], .ppf, [.p, .q, .beta], []⟩,
  ⟨.logpdf, [.x], [.own .x, .attr .q, .attr .beta], [], [.x, .q, .beta], .logpdf, [.x, .q, .beta],
    []⟩,
  ⟨.entropy, [], [.attr .q, .attr .beta], [], [.q, .beta], .entropy, [.q, .beta], []⟩,
  ⟨.mean, [], [.attr .q, .attr .beta], [], [.q, .beta], .mean, [.q, .beta], []⟩,
  ⟨.median, [], [.attr .q, .attr .beta], [], [.q, .beta], .median, [.q, .beta], []⟩,
  ⟨.var, [], [.attr .q, .attr .beta], [], [.q, .beta], .var, [.q, .beta], []⟩,
  ⟨.std, [], [.attr .q, .attr .beta], [], [.q, .beta], .std, [.q, .beta], []⟩,
  ⟨.skewness, [], [.attr .q, .attr .beta], [], [.q, .beta], .skewness, [.q, .beta], []⟩,
  ⟨.kurtosis, [], [.attr .q, .attr .beta], [], [.q, .beta], .kurtosis, [.q, .beta], []⟩,
  ⟨.mode, [], [.attr .q, .attr .beta], [], [.q, .beta], .mode, [.q, .beta], []⟩,
  ⟨.rvs, [.size, .random_state], [.attr .q, .attr .beta], [(.size, .own .size), (.rng,
    .own .random_state)], [.q, .beta, .size, .rng], .rvs, [.q, .beta], [(.size, .size),
    (.random_state, .rng)]⟩]⟩

/-- exgaussian.py:80-127 and 142-224 -/
def wExGaussian : Wiring := ⟨.simple .exGaussian, "exgaussian", [
  ⟨.pdf, [.x], [.own .x, .attr .mu, .attr .sigma, .attr .nu], [], [.x, .mu, .sigma, .nu], .pdf,
    [.x, .mu, .sigma, .nu], []⟩,
  ⟨.cdf, [.x], [.own .x, .attr .mu, .attr .sigma, .attr .nu], [], [.x, .mu, .sigma, .nu], .cdf,
    [.x, .mu, .sigma, .nu], []⟩,
  ⟨.ppf, [.q], [.own .q, .attr .mu, .attr .sigma, .attr .nu], [], [.q, .mu, .sigma, .nu], .ppf,
    [.q, .mu, .sigma, .nu], []⟩,
  ⟨.logpdf, [.x], [.own .x, .attr .mu, .attr .sigma, .attr .nu], [], [.x, .mu, .sigma, .nu],
    .logpdf, [.x, .mu, .sigma, .nu], []⟩,
  ⟨.entropy, [], [.attr .mu, .attr .sigma, .attr .nu], [], [.mu, .sigma, .nu], .entropy, [.mu,
    .sigma, .nu], []⟩,
  ⟨.mean, [], [.attr .mu, .attr .sigma, .attr .nu], [], [.mu, .sigma, .nu], .mean, [.mu, .sigma,
    .nu], []⟩,
  ⟨.median, [], [.attr .mu, .attr .sigma, .attr .nu], [], [.mu, .sigma, .nu], .median, [.mu,
    .sigma, .nu], []⟩,
  ⟨.var, [], [.attr .mu, .attr .sigma, .attr .nu], [], [.mu, .sigma, .nu], .var, [.mu, .sigma,
    .nu], []⟩,
  ⟨.std, [], [.attr .mu, .attr .sigma, .attr .nu], [], [.mu, .sigma, .nu], .std, [.mu, .sigma,
    .nu], []⟩,
  ⟨.skewness, [], [.attr .mu, .attr .sigma, .attr .nu], [], [.mu, .sigma, .nu], .skewness, [.mu,
    .sigma, .nu], []⟩,
  ⟨.kurtosis, [], [.attr .mu, .attr .sigma, .attr .nu], [], [.mu, .sigma, .nu], .kurtosis, [.mu,
    .sigma, .nu], []⟩,
  ⟨.lmoment1, [], [.attr .mu, .attr .sigma, .attr .nu], [], [.mu, .sigma, .nu], .lmoment1, [.mu,
    .sigma, .nu], []⟩,
  ⟨.lmoment2, [], [.attr .mu, .attr .sigma, .attr .nu], [], [.mu, .sigma, .nu], .lmoment2, [.mu,
    .sigma, .nu], []⟩,
  ⟨.lmoment3, [], [.attr .mu, .attr .sigma, .attr .nu], [], [.mu, .sigma, .nu], .lmoment3, [.mu,
    .sigma, .nu], []⟩,
  ⟨.lmoment4, [], [.attr .mu, .attr .sigma, .attr .nu], [], [.mu, .sigma, .nu], .lmoment4, [.mu,
    .sigma, .nu], []⟩,
  ⟨.rvs, [.size, .random_state], [.attr .mu, .attr .sigma, .attr .nu], [(.size, .own .size),
    (.rng, .own .random_state)], [.mu, .sigma, .nu, .size, .rng], .rvs, [.mu, .sigma, .nu],
    [(.size, .size), (.random_state, .rng)]⟩]⟩

/-- exponential.py:85-135 and 146-228 -/
def wExponential : Wiring := ⟨.exponential, "exponential", [
  ⟨.pdf, [.x], [.own .x, .attr .lam], [], [.x, .lam], .pdf, [.x, .lam], []⟩,
  ⟨.cdf, [.x], [.own .x, .attr .lam], [], [.x, .lam], .cdf, [.x, .lam], []⟩,
  ⟨.ppf, [.q], [.own .q, .attr .lam], [], [.q, .lam], .ppf, [.q, .lam], []⟩,
  ⟨.logpdf, [.x], [.own .x, .attr .lam], [], [.x, .lam], .logpdf, [.x, .lam], []⟩,
  ⟨.entropy, [], [.attr .lam], [], [.lam], .entropy, [.lam], []⟩,
  ⟨.median, [], [.attr .lam], [], [.lam], .median, [.lam], []⟩,
  ⟨.mean, [], [.attr .lam], [], [.lam], .mean, [.lam], []⟩,
  ⟨.mode, [], [.attr .lam], [], [.lam], .mode, [.lam], []⟩,
  ⟨.std, [], [.attr .lam], [], [.lam], .std, [.lam], []⟩,
  ⟨.var, [], [.attr .lam], [], [.lam], .var, [.lam], []⟩,
  ⟨.skewness, [], [.attr .lam], [], [.lam], .skewness, [.lam], []⟩,
  ⟨.kurtosis, [], [.attr .lam], [], [.lam], .kurtosis, [.lam], []⟩,
  ⟨.lmoment1, [], [.attr .lam], [], [.lam], .lmoment1, [.lam], []⟩,
  ⟨.lmoment2, [], [.attr .lam], [], [.lam], .lmoment2, [.lam], []⟩,
  ⟨.lmoment3, [], [.attr .lam], [], [.lam], .lmoment3, [.lam], []⟩,
  ⟨.lmoment4, [], [.attr .lam], [], [.lam], .lmoment4, [.lam], []⟩,
  ⟨.rvs, [.size, .random_state], [.attr .lam], [(.size, .own .size), (.rng, .own .random_state)],
    [.lam, .size, .rng], .rvs, [.lam], [(.size, .size), (.random_state, .rng)]⟩]⟩

/-- gamma.py:118-168 and 178-260 -/
def wGamma : Wiring := ⟨.gamma, "gamma", [
  ⟨.pdf, [.x], [.own .x, .attr .alpha, .attr .beta], [], [.x, .alpha, .beta], .pdf, [.x, .alpha,
    .beta], []⟩,
  ⟨.cdf, [.x], [.own .x, .attr .alpha, .attr .beta], [], [.x, .alpha, .beta], .cdf, [.x, .alpha,
    .beta], []⟩,
  ⟨.ppf, [.q], [.own .q, .attr .alpha, .attr .beta], [], [.q, .alpha, .beta], .ppf, [.q, .alpha,
    .beta], []⟩,
  ⟨.logpdf, [.x], [.own .x, .attr .alpha, .attr .beta], [], [.x, .alpha, .beta], .logpdf, [.x,
    .alpha, .beta], []⟩,
  ⟨.entropy, [], [.attr .alpha, .attr .beta], [], [.alpha, .beta], .entropy, [.alpha, .beta], []⟩,
  ⟨.mean, [], [.attr .alpha, .attr .beta], [], [.alpha, .beta], .mean, [.alpha, .beta], []⟩,
  ⟨.mode, [], [.attr .alpha, .attr .beta], [], [.alpha, .beta], .mode, [.alpha, .beta], []⟩,
  ⟨.median, [], [.attr .alpha, .attr .beta], [], [.alpha, .beta], .median, [.alpha, .beta], []⟩,
  ⟨.var, [], [.attr .alpha, .attr .beta], [], [.alpha, .beta], .var, [.alpha, .beta], []⟩,
  ⟨.std, [], [.attr .alpha, .attr .beta], [], [.alpha, .beta], .std, [.alpha, .beta], []⟩,
  ⟨.skewness, [], [.attr .alpha, .attr .beta], [], [.alpha, .beta], .skewness, [.alpha, .beta], []⟩,
  ⟨.kurtosis, [], [.attr .alpha, .attr .beta], [], [.alpha, .beta], .kurtosis, [.alpha, .beta], []⟩,
  ⟨.lmoment1, [], [.attr .alpha, .attr .beta], [], [.alpha, .beta], .lmoment1, [.alpha, .beta], []⟩,
  ⟨.lmoment2, [], [.attr .alpha, .attr .beta], [], [.alpha, .beta], .lmoment2, [.alpha, .beta], []⟩,
  ⟨.lmoment3, [], [.attr .alpha, .attr .beta], [], [.alpha, .beta], .lmoment3, [.alpha, .beta], []⟩,
  ⟨.lmoment4, [], [.attr .alpha, .attr .beta], [], [.alpha, .beta], .lmoment4, [.alpha, .beta], []⟩,
  ⟨.rvs, [.size, .random_state], [.attr .alpha, .attr .beta], [(.size, .own .size), (.rng,
    .own .random_state)], [.alpha, .beta, .size, .rng], .rvs, [.alpha, .beta], [(.size, .size),
    (.random_state, .rng)]⟩]⟩

/-- geometric.py:57-107 and 118-200 -/
def wGeometric : Wiring := ⟨.simple .geometric, "geometric", [
  ⟨.pdf, [.x], [.own .x, .attr .p], [], [.x, .p], .pdf, [.x, .p], []⟩,
  ⟨.cdf, [.x], [.own .x, .attr .p], [], [.x, .p], .cdf, [.x, .p], []⟩,
  ⟨.ppf, [.q], [.own .q, .attr .p], [], [.q, .p], .ppf, [.q, .p], []⟩,
  ⟨.logpdf, [.x], [.own .x, .attr .p], [], [.x, .p], .logpdf, [.x, .p], []⟩,
  ⟨.entropy, [], [.attr .p], [], [.p], .entropy, [.p], []⟩,
  ⟨.mean, [], [.attr .p], [], [.p], .mean, [.p], []⟩,
  ⟨.mode, [], [.attr .p], [], [.p], .mode, [.p], []⟩,
  ⟨.median, [], [.attr .p], [], [.p], .median, [.p], []⟩,
  ⟨.var, [], [.attr .p], [], [.p], .var, [.p], []⟩,
  ⟨.std, [], [.attr .p], [], [.p], .std, [.p], []⟩,
  ⟨.skewness, [], [.attr .p], [], [.p], .skewness, [.p], []⟩,
  ⟨.kurtosis, [], [.attr .p], [], [.p], .kurtosis, [.p], []⟩,
  ⟨.lmoment1, [], [.attr .p], [], [.p], .lmoment1, [.p], []⟩,
  ⟨.lmoment2, [], [.attr .p], [], [.p], .lmoment2, [.p], []⟩,
  ⟨.lmoment3, [], [.attr .p], [], [.p], .lmoment3, [.p], []⟩,
  ⟨.lmoment4, [], [.attr .p], [], [.p], .lmoment4, [.p], []⟩,
  ⟨.rvs, [.size, .random_state], [.attr .p], [(.size, .own .size), (.rng, .own .random_state)],
    [.p, .size, .rng], .rvs, [.p], [(.size, .size), (.random_state, .rng)]⟩]⟩

/-- gumbel.py:70-120 and 131-213 -/
def wGumbel : Wiring := ⟨.simple .gumbel, "gumbel", [
  ⟨.pdf, [.x], [.own .x, .attr .mu, .attr .beta], [], [.x, .mu, .beta], .pdf, [.x, .mu, .beta], []⟩,
  ⟨.cdf, [.x], [.own .x, .attr .mu, .attr .beta], [], [.x, .mu, .beta], .cdf, [.x, .mu, .beta], []⟩,
  ⟨.ppf, [.q], [.own .q, .attr .mu, .attr .beta], [], [.q, .mu, .beta], .ppf, [.q, .mu, .beta], []⟩,
  ⟨.logpdf, [.x], [.own .x, .attr .mu, .attr .beta], [], [.x, .mu, .beta], .logpdf, [.x, .mu,
    .beta], []⟩,
  ⟨.entropy, [], [.attr .mu, .attr .beta], [], [.mu, .beta], .entropy, [.mu, .beta], []⟩,
  ⟨.mean, [], [.attr .mu, .attr .beta], [], [.mu, .beta], .mean, [.mu, .beta], []⟩,
  ⟨.mode, [], [.attr .mu, .attr .beta], [], [.mu, .beta], .mode, [.mu, .beta], []⟩,
  ⟨.median, [], [.attr .mu, .attr .beta], [], [.mu, .beta], .median, [.mu, .beta], []⟩,
  ⟨.var, [], [.attr .mu, .attr .beta], [], [.mu, .beta], .var, [.mu, .beta], []⟩,
  ⟨.std, [], [.attr .mu, .attr .beta], [], [.mu, .beta], .std, [.mu, .beta], []⟩,
  ⟨.skewness, [], [.attr .mu, .attr .beta], [], [.mu, .beta], .skewness, [.mu, .beta], []⟩,
  ⟨.kurtosis, [], [.attr .mu, .attr .beta], [], [.mu, .beta], .kurtosis, [.mu, .beta], []⟩,
  ⟨.lmoment1, [], [.attr .mu, .attr .beta], [], [.mu, .beta], .lmoment1, [.mu, .beta], []⟩,
  ⟨.lmoment2, [], [.attr .mu, .attr .beta], [], [.mu, .beta], .lmoment2, [.mu, .beta], []⟩,
  ⟨.lmoment3, [], [.attr .mu, .attr .beta], [], [.mu, .beta], .lmoment3, [.mu, .beta], []⟩,
  ⟨.lmoment4, [], [.attr .mu, .attr .beta], [], [.mu, .beta], .lmoment4, [.mu, .beta], []⟩,
  ⟨.rvs, [.size, .random_state], [.attr .mu, .attr .beta], [(.size, .own .size), (.rng,
    .own .random_state)], [.mu, .beta, .size, .rng], .rvs, [.mu, .beta], [(.size, .size),
    (.random_state, .rng)]⟩]⟩

/-- halfcauchy.py:59-109 and 118-200 -/
def wHalfCauchy : Wiring := ⟨.simple .halfCauchy, "halfcauchy", [
  ⟨.pdf, [.x], [.own .x, .attr .beta], [], [.x, .beta], .pdf, [.x, .beta], []⟩,
  ⟨.cdf, [.x], [.own .x, .attr .beta], [], [.x, .beta], .cdf, [.x, .beta], []⟩,
  ⟨.ppf, [.q], [.own .q, .attr .beta], [], [.q, .beta], .ppf, [.q, .beta], []⟩,
  ⟨.logpdf, [.x], [.own .x, .attr .beta], [], [.x, .beta], .logpdf, [.x, .beta], []⟩,
  ⟨.entropy, [], [.attr .beta], [], [.beta], .entropy, [.beta], []⟩,
  ⟨.mean, [], [.attr .beta], [], [.beta], .mean, [.beta], []⟩,
  ⟨.mode, [], [.attr .beta], [], [.beta], .mode, [.beta], []⟩,
  ⟨.median, [], [.attr .beta], [], [.beta], .median, [.beta], []⟩,
  ⟨.var, [], [.attr .beta], [], [.beta], .var, [.beta], []⟩,
  ⟨.std, [], [.attr .beta], [], [.beta], .std, [.beta], []⟩,
  ⟨.skewness, [], [.attr .beta], [], [.beta], .skewness, [.beta], []⟩,
  ⟨.kurtosis, [], [.attr .beta], [], [.beta], .kurtosis, [.beta], []⟩,
  ⟨.lmoment1, [], [.attr .beta], [], [.beta], .lmoment1, [.beta], []⟩,
  ⟨.lmoment2, [], [.attr .beta], [], [.beta], .lmoment2, [.beta], []⟩,
  ⟨.lmoment3, [], [.attr .beta], [], [.beta], .lmoment3, [.beta], []⟩,
  ⟨.lmoment4, [], [.attr .beta], [], [.beta], .lmoment4, [.beta], []⟩,
  ⟨.rvs, [.size, .random_state], [.attr .beta], [(.size, .own .size), (.rng, .own .random_state)],
    [.beta, .size, .rng], .rvs, [.beta], [(.size, .size), (.random_state, .rng)]⟩]⟩

/-- halfnormal.py:93-143 and 152-234 -/
def wHalfNormal : Wiring := ⟨.halfNormal, "halfnormal", [
  ⟨.pdf, [.x], [.own .x, .attr .sigma], [], [.x, .sigma], .pdf, [.x, .sigma], []⟩,
  ⟨.cdf, [.x], [.own .x, .attr .sigma], [], [.x, .sigma], .cdf, [.x, .sigma], []⟩,
  ⟨.ppf, [.q], [.own .q, .attr .sigma], [], [.q, .sigma], .ppf, [.q, .sigma], []⟩,
  ⟨.logpdf, [.x], [.own .x, .attr .sigma], [], [.x, .sigma], .logpdf, [.x, .sigma], []⟩,
  ⟨.entropy, [], [.attr .sigma], [], [.sigma], .entropy, [.sigma], []⟩,
  ⟨.mean, [], [.attr .sigma], [], [.sigma], .mean, [.sigma], []⟩,
  ⟨.mode, [], [.attr .sigma], [], [.sigma], .mode, [.sigma], []⟩,
  ⟨.median, [], [.attr .sigma], [], [.sigma], .median, [.sigma], []⟩,
  ⟨.var, [], [.attr .sigma], [], [.sigma], .var, [.sigma], []⟩,
  ⟨.std, [], [.attr .sigma], [], [.sigma], .std, [.sigma], []⟩,
  ⟨.skewness, [], [.attr .sigma], [], [.sigma], .skewness, [.sigma], []⟩,
  ⟨.kurtosis, [], [.attr .sigma], [], [.sigma], .kurtosis, [.sigma], []⟩,
  ⟨.lmoment1, [], [.attr .sigma], [], [.sigma], .lmoment1, [.sigma], []⟩,
  ⟨.lmoment2, [], [.attr .sigma], [], [.sigma], .lmoment2, [.sigma], []⟩,
  ⟨.lmoment3, [], [.attr .sigma], [], [.sigma], .lmoment3, [.sigma], []⟩,
  ⟨.lmoment4, [], [.attr .sigma], [], [.sigma], .lmoment4, [.sigma], []⟩,
  ⟨.rvs, [.size, .random_state], [.attr .sigma], [(.size, .own .size), (.rng,
    .own .random_state)], [.sigma, .size, .rng], .rvs, [.sigma], [(.size, .size), (.random_state,
    .rng)]⟩]⟩

/-- halfstudentt.py:113-163 and 190-272 -/
def wHalfStudentT : Wiring := ⟨.halfStudentT, "halfstudentt", [
  ⟨.pdf, [.x], [.own .x, .attr .nu, .attr .sigma], [], [.x, .nu, .sigma], .pdf, [.x, .nu, .sigma],
    []⟩,
  ⟨.cdf, [.x], [.own .x, .attr .nu, .attr .sigma], [], [.x, .nu, .sigma], .cdf, [.x, .nu, .sigma],
    []⟩,
  ⟨.ppf, [.q], [.own .q, .attr .nu, .attr .sigma], [], [.q, .nu, .sigma], .ppf, [.q, .nu, .sigma],
    []⟩,
  ⟨.logpdf, [.x], [.own .x, .attr .nu, .attr .sigma], [], [.x, .nu, .sigma], .logpdf, [.x, .nu,
    .sigma], []⟩,
  ⟨.entropy, [], [.attr .nu, .attr .sigma], [], [.nu, .sigma], .entropy, [.nu, .sigma], []⟩,
  ⟨.mean, [], [.attr .nu, .attr .sigma], [], [.nu, .sigma], .mean, [.nu, .sigma], []⟩,
  ⟨.mode, [], [.attr .nu, .attr .sigma], [], [.nu, .sigma], .mode, [.nu, .sigma], []⟩,
  ⟨.median, [], [.attr .nu, .attr .sigma], [], [.nu, .sigma], .median, [.nu, .sigma], []⟩,
  ⟨.var, [], [.attr .nu, .attr .sigma], [], [.nu, .sigma], .var, [.nu, .sigma], []⟩,
  ⟨.std, [], [.attr .nu, .attr .sigma], [], [.nu, .sigma], .std, [.nu, .sigma], []⟩,
  ⟨.skewness, [], [.attr .nu, .attr .sigma], [], [.nu, .sigma], .skewness, [.nu, .sigma], []⟩,
  ⟨.kurtosis, [], [.attr .nu, .attr .sigma], [], [.nu, .sigma], .kurtosis, [.nu, .sigma], []⟩,
  ⟨.lmoment1, [], [.attr .nu, .attr .sigma], [], [.nu, .sigma], .lmoment1, [.nu, .sigma], []⟩,
  ⟨.lmoment2, [], [.attr .nu, .attr .sigma], [], [.nu, .sigma], .lmoment2, [.nu, .sigma], []⟩,
  ⟨.lmoment3, [], [.attr .nu, .attr .sigma], [], [.nu, .sigma], .lmoment3, [.nu, .sigma], []⟩,
  ⟨.lmoment4, [], [.attr .nu, .attr .sigma], [], [.nu, .sigma], .lmoment4, [.nu, .sigma], []⟩,
  ⟨.rvs, [.size, .random_state], [.attr .nu, .attr .sigma], [(.size, .own .size), (.rng,
    .own .random_state)], [.nu, .sigma, .size, .rng], .rvs, [.nu, .sigma], [(.size, .size),
    (.random_state, .rng)]⟩]⟩

/-- hypergeometric.py:71-121 and 130-212 -/
def wHyperGeometric : Wiring := ⟨.simple .hyperGeometric, "hypergeometric", [
  ⟨.pdf, [.x], [.own .x, .attr .N, .attr .k, .attr .n], [], [.x, .N, .k, .n], .pdf, [.x, .N, .k,
    .n], []⟩,
  ⟨.cdf, [.x], [.own .x, .attr .N, .attr .k, .attr .n], [], [.x, .N, .k, .n], .cdf, [.x, .N, .k,
    .n], []⟩,
  ⟨.ppf, [.q], [.own .q, .attr .N, .attr .k, .attr .n], [], [.q, .N, .k, .n], .ppf, [.q, .N, .k,
    .n], []⟩,
  ⟨.logpdf, [.x], [.own .x, .attr .N, .attr .k, .attr .n], [], [.x, .N, .k, .n], .logpdf, [.x, .N,
    .k, .n], []⟩,
  ⟨.entropy, [], [.attr .N, .attr .k, .attr .n], [], [.N, .k, .n], .entropy, [.N, .k, .n], []⟩,
  ⟨.mean, [], [.attr .N, .attr .k, .attr .n], [], [.N, .k, .n], .mean, [.N, .k, .n], []⟩,
  ⟨.median, [], [.attr .N, .attr .k, .attr .n], [], [.N, .k, .n], .median, [.N, .k, .n], []⟩,
  ⟨.var, [], [.attr .N, .attr .k, .attr .n], [], [.N, .k, .n], .var, [.N, .k, .n], []⟩,
  ⟨.std, [], [.attr .N, .attr .k, .attr .n], [], [.N, .k, .n], .std, [.N, .k, .n], []⟩,
  ⟨.skewness, [], [.attr .N, .attr .k, .attr .n], [], [.N, .k, .n], .skewness, [.N, .k, .n], []⟩,
  ⟨.kurtosis, [], [.attr .N, .attr .k, .attr .n], [], [.N, .k, .n], .kurtosis, [.N, .k, .n], []⟩,
  ⟨.lmoment1, [], [.attr .N, .attr .k, .attr .n], [], [.N, .k, .n], .lmoment1, [.N, .k, .n], []⟩,
  ⟨.lmoment2, [], [.attr .N, .attr .k, .attr .n], [], [.N, .k, .n], .lmoment2, [.N, .k, .n], []⟩,
  ⟨.lmoment3, [], [.attr .N, .attr .k, .attr .n], [], [.N, .k, .n], .lmoment3, [.N, .k, .n], []⟩,
  ⟨.lmoment4, [], [.attr .N, .attr .k, .attr .n], [], [.N, .k, .n], .lmoment4, [.N, .k, .n], []⟩,
  ⟨.mode, [], [.attr .N, .attr .k, .attr .n], [], [.N, .k, .n], .mode, [.N, .k, .n], []⟩,
  ⟨.rvs, [.size, .random_state], [.attr .N, .attr .k, .attr .n], [(.size, .own .size), (.rng,
    .own .random_state)], [.N, .k, .n, .size, .rng], .rvs, [.N, .k, .n], [(.size, .size),
    (.random_state, .rng)]⟩]⟩

/-- inversegamma.py:107-157 and 167-249 -/
def wInverseGamma : Wiring := ⟨.inverseGamma, "inversegamma", [
  ⟨.pdf, [.x], [.own .x, .attr .alpha, .attr .beta], [], [.x, .alpha, .beta], .pdf, [.x, .alpha,
    .beta], []⟩,
  ⟨.cdf, [.x], [.own .x, .attr .alpha, .attr .beta], [], [.x, .alpha, .beta], .cdf, [.x, .alpha,
    .beta], []⟩,
  ⟨.ppf, [.q], [.own .q, .attr .alpha, .attr .beta], [], [.q, .alpha, .beta], .ppf, [.q, .alpha,
    .beta], []⟩,
  ⟨.logpdf, [.x], [.own .x, .attr .alpha, .attr .beta], [], [.x, .alpha, .beta], .logpdf, [.x,
    .alpha, .beta], []⟩,
  ⟨.entropy, [], [.attr .alpha, .attr .beta], [], [.alpha, .beta], .entropy, [.alpha, .beta], []⟩,
  ⟨.mean, [], [.attr .alpha, .attr .beta], [], [.alpha, .beta], .mean, [.alpha, .beta], []⟩,
  ⟨.mode, [], [.attr .alpha, .attr .beta], [], [.alpha, .beta], .mode, [.alpha, .beta], []⟩,
  ⟨.median, [], [.attr .alpha, .attr .beta], [], [.alpha, .beta], .median, [.alpha, .beta], []⟩,
  ⟨.var, [], [.attr .alpha, .attr .beta], [], [.alpha, .beta], .var, [.alpha, .beta], []⟩,
  ⟨.std, [], [.attr .alpha, .attr .beta], [], [.alpha, .beta], .std, [.alpha, .beta], []⟩,
  ⟨.skewness, [], [.attr .alpha, .attr .beta], [], [.alpha, .beta], .skewness, [.alpha, .beta], []⟩,
  ⟨.kurtosis, [], [.attr .alpha, .attr .beta], [], [.alpha, .beta], .kurtosis, [.alpha, .beta], []⟩,
  ⟨.lmoment1, [], [.attr .alpha, .attr .beta], [], [.alpha, .beta], .lmoment1, [.alpha, .beta], []⟩,
  ⟨.lmoment2, [], [.attr .alpha, .attr .beta], [], [.alpha, .beta], .lmoment2, [.alpha, .beta], []⟩,
  ⟨.lmoment3, [], [.attr .alpha, .attr .beta], [], [.alpha, .beta], .lmoment3, [.alpha, .beta], []⟩,
  ⟨.lmoment4, [], [.attr .alpha, .attr .beta], [], [.alpha, .beta], .lmoment4, [.alpha, .beta], []⟩,
  ⟨.rvs, [.size, .random_state], [.attr .alpha, .attr .beta], [(.size, .own .size), (.rng,
    .own .random_state)], [.alpha, .beta, .size, .rng], .rvs, [.alpha, .beta], [(.size, .size),
    (.random_state, .rng)]⟩]⟩

/-- kumaraswamy.py:65-115 and 124-206 -/
def wKumaraswamy : Wiring := ⟨.kumaraswamy, "kumaraswamy", [
  ⟨.pdf, [.x], [.own .x, .attr .a, .attr .b], [], [.x, .a, .b], .pdf, [.x, .a, .b], []⟩,
  ⟨.cdf, [.x], [.own .x, .attr .a, .attr .b], [], [.x, .a, .b], .cdf, [.x, .a, .b], []⟩,
  ⟨.ppf, [.q], [.own .q, .attr .a, .attr .b], [], [.q, .a, .b], .ppf, [.q, .a, .b], []⟩,
  ⟨.logpdf, [.x], [.own .x, .attr .a, .attr .b], [], [.x, .a, .b], .logpdf, [.x, .a, .b], []⟩,
  ⟨.entropy, [], [.attr .a, .attr .b], [], [.a, .b], .entropy, [.a, .b], []⟩,
  ⟨.mean, [], [.attr .a, .attr .b], [], [.a, .b], .mean, [.a, .b], []⟩,
  ⟨.mode, [], [.attr .a, .attr .b], [], [.a, .b], .mode, [.a, .b], []⟩,
  ⟨.median, [], [.attr .a, .attr .b], [], [.a, .b], .median, [.a, .b], []⟩,
  ⟨.var, [], [.attr .a, .attr .b], [], [.a, .b], .var, [.a, .b], []⟩,
  ⟨.std, [], [.attr .a, .attr .b], [], [.a, .b], .std, [.a, .b], []⟩,
  ⟨.skewness, [], [.attr .a, .attr .b], [], [.a, .b], .skewness, [.a, .b], []⟩,
  ⟨.kurtosis, [], [.attr .a, .attr .b], [], [.a, .b], .kurtosis, [.a, .b], []⟩,
  ⟨.lmoment1, [], [.attr .a, .attr .b], [], [.a, .b], .lmoment1, [.a, .b], []⟩,
  ⟨.lmoment2, [], [.attr .a, .attr .b], [], [.a, .b], .lmoment2, [.a, .b], []⟩,
  ⟨.lmoment3, [], [.attr .a, .attr .b], [], [.a, .b], .lmoment3, [.a, .b], []⟩,
  ⟨.lmoment4, [], [.attr .a, .attr .b], [], [.a, .b], .lmoment4, [.a, .b], []⟩,
  ⟨.rvs, [.size, .random_state], [.attr .a, .attr .b], [(.size, .own .size), (.rng,
    .own .random_state)], [.a, .b, .size, .rng], .rvs, [.a, .b], [(.size, .size), (.random_state,
    .rng)]⟩]⟩

/-- laplace.py:65-115 and 126-208 -/
def wLaplace : Wiring := ⟨.simple .laplace, "laplace", [
  ⟨.pdf, [.x], [.own .x, .attr .mu, .attr .b], [], [.x, .mu, .b], .pdf, [.x, .mu, .b], []⟩,
  ⟨.cdf, [.x], [.own .x, .attr .mu, .attr .b], [], [.x, .mu, .b], .cdf, [.x, .mu, .b], []⟩,
  ⟨.ppf, [.q], [.own .q, .attr .mu, .attr .b], [], [.q, .mu, .b], .ppf, [.q, .mu, .b], []⟩,
  ⟨.logpdf, [.x], [.own .x, .attr .mu, .attr .b], [], [.x, .mu, .b], .logpdf, [.x, .mu, .b], []⟩,
  ⟨.entropy, [], [.attr .mu, .attr .b], [], [.mu, .b], .entropy, [.mu, .b], []⟩,
  ⟨.median, [], [.attr .mu, .attr .b], [], [.mu, .b], .median, [.mu, .b], []⟩,
  ⟨.mean, [], [.attr .mu, .attr .b], [], [.mu, .b], .mean, [.mu, .b], []⟩,
  ⟨.mode, [], [.attr .mu, .attr .b], [], [.mu, .b], .mode, [.mu, .b], []⟩,
  ⟨.std, [], [.attr .mu, .attr .b], [], [.mu, .b], .std, [.mu, .b], []⟩,
  ⟨.var, [], [.attr .mu, .attr .b], [], [.mu, .b], .var, [.mu, .b], []⟩,
  ⟨.skewness, [], [.attr .mu, .attr .b], [], [.mu, .b], .skewness, [.mu, .b], []⟩,
  ⟨.kurtosis, [], [.attr .mu, .attr .b], [], [.mu, .b], .kurtosis, [.mu, .b], []⟩,
  ⟨.lmoment1, [], [.attr .mu, .attr .b], [], [.mu, .b], .lmoment1, [.mu, .b], []⟩,
  ⟨.lmoment2, [], [.attr .mu, .attr .b], [], [.mu, .b], .lmoment2, [.mu, .b], []⟩,
  ⟨.lmoment3, [], [.attr .mu, .attr .b], [], [.mu, .b], .lmoment3, [.mu, .b], []⟩,
  ⟨.lmoment4, [], [.attr .mu, .attr .b], [], [.mu, .b], .lmoment4, [.mu, .b], []⟩,
  ⟨.rvs, [.size, .random_state], [.attr .mu, .attr .b], [(.size, .own .size), (.rng,
    .own .random_state)], [.mu, .b, .size, .rng], .rvs, [.mu, .b], [(.size, .size),
    (.random_state, .rng)]⟩]⟩

/-- logistic.py:65-115 and 125-207 -/
def wLogistic : Wiring := ⟨.simple .logistic, "logistic", [
  ⟨.pdf, [.x], [.own .x, .attr .mu, .attr .s], [], [.x, .mu, .s], .pdf, [.x, .mu, .s], []⟩,
  ⟨.cdf, [.x], [.own .x, .attr .mu, .attr .s], [], [.x, .mu, .s], .cdf, [.x, .mu, .s], []⟩,
  ⟨.ppf, [.q], [.own .q, .attr .mu, .attr .s], [], [.q, .mu, .s], .ppf, [.q, .mu, .s], []⟩,
  ⟨.logpdf, [.x], [.own .x, .attr .mu, .attr .s], [], [.x, .mu, .s], .logpdf, [.x, .mu, .s], []⟩,
  ⟨.entropy, [], [.attr .mu, .attr .s], [], [.mu, .s], .entropy, [.mu, .s], []⟩,
  ⟨.mean, [], [.attr .mu, .attr .s], [], [.mu, .s], .mean, [.mu, .s], []⟩,
  ⟨.mode, [], [.attr .mu, .attr .s], [], [.mu, .s], .mode, [.mu, .s], []⟩,
  ⟨.median, [], [.attr .mu, .attr .s], [], [.mu, .s], .median, [.mu, .s], []⟩,
  ⟨.var, [], [.attr .mu, .attr .s], [], [.mu, .s], .var, [.mu, .s], []⟩,
  ⟨.std, [], [.attr .mu, .attr .s], [], [.mu, .s], .std, [.mu, .s], []⟩,
  ⟨.skewness, [], [.attr .mu, .attr .s], [], [.mu, .s], .skewness, [.mu, .s], []⟩,
  ⟨.kurtosis, [], [.attr .mu, .attr .s], [], [.mu, .s], .kurtosis, [.mu, .s], []⟩,
  ⟨.lmoment1, [], [.attr .mu, .attr .s], [], [.mu, .s], .lmoment1, [.mu, .s], []⟩,
  ⟨.lmoment2, [], [.attr .mu, .attr .s], [], [.mu, .s], .lmoment2, [.mu, .s], []⟩,
  ⟨.lmoment3, [], [.attr .mu, .attr .s], [], [.mu, .s], .lmoment3, [.mu, .s], []⟩,
  ⟨.lmoment4, [], [.attr .mu, .attr .s], [], [.mu, .s], .lmoment4, [.mu, .s], []⟩,
  ⟨.rvs, [.size, .random_state], [.attr .mu, .attr .s], [(.size, .own .size), (.rng,
    .own .random_state)], [.mu, .s, .size, .rng], .rvs, [.mu, .s], [(.size, .size),
    (.random_state, .rng)]⟩]⟩

/-- logitnormal.py:97-147 and 159-241 -/
def wLogitNormal : Wiring := ⟨.logitNormal, "logitnormal", [
  ⟨.pdf, [.x], [.own .x, .attr .mu, .attr .sigma], [], [.x, .mu, .sigma], .pdf, [.x, .mu, .sigma],
    []⟩,
  ⟨.cdf, [.x], [.own .x, .attr .mu, .attr .sigma], [], [.x, .mu, .sigma], .cdf, [.x, .mu, .sigma],
    []⟩,
  ⟨.ppf, [.q], [.own .q, .attr .mu, .attr .sigma], [], [.q, .mu, .sigma], .ppf, [.q, .mu, .sigma],
    []⟩,
  ⟨.logpdf, [.x], [.own .x, .attr .mu, .attr .sigma], [], [.x, .mu, .sigma], .logpdf, [.x, .mu,
    .sigma], []⟩,
  ⟨.entropy, [], [.attr .mu, .attr .sigma], [], [.mu, .sigma], .entropy, [.mu, .sigma], []⟩,
  ⟨.mean, [], [.attr .mu, .attr .sigma], [], [.mu, .sigma], .mean, [.mu, .sigma], []⟩,
  ⟨.median, [], [.attr .mu, .attr .sigma], [], [.mu, .sigma], .median, [.mu, .sigma], []⟩,
  ⟨.var, [], [.attr .mu, .attr .sigma], [], [.mu, .sigma], .var, [.mu, .sigma], []⟩,
  ⟨.std, [], [.attr .mu, .attr .sigma], [], [.mu, .sigma], .std, [.mu, .sigma], []⟩,
  ⟨.skewness, [], [.attr .mu, .attr .sigma], [], [.mu, .sigma], .skewness, [.mu, .sigma], []⟩,
  ⟨.kurtosis, [], [.attr .mu, .attr .sigma], [], [.mu, .sigma], .kurtosis, [.mu, .sigma], []⟩,
  ⟨.lmoment1, [], [.attr .mu, .attr .sigma], [], [.mu, .sigma], .lmoment1, [.mu, .sigma], []⟩,
  ⟨.lmoment2, [], [.attr .mu, .attr .sigma], [], [.mu, .sigma], .lmoment2, [.mu, .sigma], []⟩,
  ⟨.lmoment3, [], [.attr .mu, .attr .sigma], [], [.mu, .sigma], .lmoment3, [.mu, .sigma], []⟩,
  ⟨.lmoment4, [], [.attr .mu, .attr .sigma], [], [.mu, .sigma], .lmoment4, [.mu, .sigma], []⟩,
  ⟨.mode, [], [.attr .mu, .attr .sigma], [], [.mu, .sigma], .mode, [.mu, .sigma], []⟩,
  ⟨.rvs, [.size, .random_state], [.attr .mu, .attr .sigma], [(.size, .own .size), (.rng,
    .own .random_state)], [.mu, .sigma, .size, .rng], .rvs, [.mu, .sigma], [(.size, .size),
    (.random_state, .rng)]⟩]⟩

/-- loglogistic.py:69-119 and 128-210 -/
def wLogLogistic : Wiring := ⟨.simple .logLogistic, "loglogistic", [
  ⟨.pdf, [.x], [.own .x, .attr .alpha, .attr .beta], [], [.x, .alpha, .beta], .pdf, [.x, .alpha,
    .beta], []⟩,
  ⟨.cdf, [.x], [.own .x, .attr .alpha, .attr .beta], [], [.x, .alpha, .beta], .cdf, [.x, .alpha,
    .beta], []⟩,
  ⟨.ppf, [.q], [.own .q, .attr .alpha, .attr .beta], [], [.q, .alpha, .beta], .ppf, [.q, .alpha,
    .beta], []⟩,
  ⟨.logpdf, [.x], [.own .x, .attr .alpha, .attr .beta], [], [.x, .alpha, .beta], .logpdf, [.x,
    .alpha, .beta], []⟩,
  ⟨.entropy, [], [.attr .alpha, .attr .beta], [], [.alpha, .beta], .entropy, [.alpha, .beta], []⟩,
  ⟨.mean, [], [.attr .alpha, .attr .beta], [], [.alpha, .beta], .mean, [.alpha, .beta], []⟩,
  ⟨.mode, [], [.attr .alpha, .attr .beta], [], [.alpha, .beta], .mode, [.alpha, .beta], []⟩,
  ⟨.median, [], [.attr .alpha, .attr .beta], [], [.alpha, .beta], .median, [.alpha, .beta], []⟩,
  ⟨.var, [], [.attr .alpha, .attr .beta], [], [.alpha, .beta], .var, [.alpha, .beta], []⟩,
  ⟨.std, [], [.attr .alpha, .attr .beta], [], [.alpha, .beta], .std, [.alpha, .beta], []⟩,
  ⟨.skewness, [], [.attr .alpha, .attr .beta], [], [.alpha, .beta], .skewness, [.alpha, .beta], []⟩,
  ⟨.kurtosis, [], [.attr .alpha, .attr .beta], [], [.alpha, .beta], .kurtosis, [.alpha, .beta], []⟩,
  ⟨.lmoment1, [], [.attr .alpha, .attr .beta], [], [.alpha, .beta], .lmoment1, [.alpha, .beta], []⟩,
  ⟨.lmoment2, [], [.attr .alpha, .attr .beta], [], [.alpha, .beta], .lmoment2, [.alpha, .beta], []⟩,
  ⟨.lmoment3, [], [.attr .alpha, .attr .beta], [], [.alpha, .beta], .lmoment3, [.alpha, .beta], []⟩,
  ⟨.lmoment4, [], [.attr .alpha, .attr .beta], [], [.alpha, .beta], .lmoment4, [.alpha, .beta], []⟩,
  ⟨.rvs, [.size, .random_state], [.attr .alpha, .attr .beta], [(.size, .own .size), (.rng,
    .own .random_state)], [.alpha, .beta, .size, .rng], .rvs, [.alpha, .beta], [(.size, .size),
    (.random_state, .rng)]⟩]⟩

/-- lognormal.py:73-123 and 135-217 -/
def wLogNormal : Wiring := ⟨.simple .logNormal, "lognormal", [
  ⟨.pdf, [.x], [.own .x, .attr .mu, .attr .sigma], [], [.x, .mu, .sigma], .pdf, [.x, .mu, .sigma],
    []⟩,
  ⟨.cdf, [.x], [.own .x, .attr .mu, .attr .sigma], [], [.x, .mu, .sigma], .cdf, [.x, .mu, .sigma],
    []⟩,
  ⟨.ppf, [.q], [.own .q, .attr .mu, .attr .sigma], [], [.q, .mu, .sigma], .ppf, [.q, .mu, .sigma],
    []⟩,
  ⟨.logpdf, [.x], [.own .x, .attr .mu, .attr .sigma], [], [.x, .mu, .sigma], .logpdf, [.x, .mu,
    .sigma], []⟩,
  ⟨.entropy, [], [.attr .mu, .attr .sigma], [], [.mu, .sigma], .entropy, [.mu, .sigma], []⟩,
  ⟨.mean, [], [.attr .mu, .attr .sigma], [], [.mu, .sigma], .mean, [.mu, .sigma], []⟩,
  ⟨.mode, [], [.attr .mu, .attr .sigma], [], [.mu, .sigma], .mode, [.mu, .sigma], []⟩,
  ⟨.median, [], [.attr .mu, .attr .sigma], [], [.mu, .sigma], .median, [.mu, .sigma], []⟩,
  ⟨.var, [], [.attr .mu, .attr .sigma], [], [.mu, .sigma], .var, [.mu, .sigma], []⟩,
  ⟨.std, [], [.attr .mu, .attr .sigma], [], [.mu, .sigma], .std, [.mu, .sigma], []⟩,
  ⟨.skewness, [], [.attr .mu, .attr .sigma], [], [.mu, .sigma], .skewness, [.mu, .sigma], []⟩,
  ⟨.kurtosis, [], [.attr .mu, .attr .sigma], [], [.mu, .sigma], .kurtosis, [.mu, .sigma], []⟩,
  ⟨.lmoment1, [], [.attr .mu, .attr .sigma], [], [.mu, .sigma], .lmoment1, [.mu, .sigma], []⟩,
  ⟨.lmoment2, [], [.attr .mu, .attr .sigma], [], [.mu, .sigma], .lmoment2, [.mu, .sigma], []⟩,
  ⟨.lmoment3, [], [.attr .mu, .attr .sigma], [], [.mu, .sigma], .lmoment3, [.mu, .sigma], []⟩,
  ⟨.lmoment4, [], [.attr .mu, .attr .sigma], [], [.mu, .sigma], .lmoment4, [.mu, .sigma], []⟩,
  ⟨.rvs, [.size, .random_state], [.attr .mu, .attr .sigma], [(.size, .own .size), (.rng,
    .own .random_state)], [.mu, .sigma, .size, .rng], .rvs, [.mu, .sigma], [(.size, .size),
    (.random_state, .rng)]⟩]⟩

/-- moyal.py:72-122 and 133-215 -/
def wMoyal : Wiring := ⟨.simple .moyal, "moyal", [
  ⟨.pdf, [.x], [.own .x, .attr .mu, .attr .sigma], [], [.x, .mu, .sigma], .pdf, [.x, .mu, .sigma],
    []⟩,
  ⟨.cdf, [.x], [.own .x, .attr .mu, .attr .sigma], [], [.x, .mu, .sigma], .cdf, [.x, .mu, .sigma],
    []⟩,
  ⟨.ppf, [.q], [.own .q, .attr .mu, .attr .sigma], [], [.q, .mu, .sigma], .ppf, [.q, .mu, .sigma],
    []⟩,
  ⟨.logpdf, [.x], [.own .x, .attr .mu, .attr .sigma], [], [.x, .mu, .sigma], .logpdf, [.x, .mu,
    .sigma], []⟩,
  ⟨.entropy, [], [.attr .mu, .attr .sigma], [], [.mu, .sigma], .entropy, [.mu, .sigma], []⟩,
  ⟨.mean, [], [.attr .mu, .attr .sigma], [], [.mu, .sigma], .mean, [.mu, .sigma], []⟩,
  ⟨.mode, [], [.attr .mu, .attr .sigma], [], [.mu, .sigma], .mode, [.mu, .sigma], []⟩,
  ⟨.median, [], [.attr .mu, .attr .sigma], [], [.mu, .sigma], .median, [.mu, .sigma], []⟩,
  ⟨.var, [], [.attr .mu, .attr .sigma], [], [.mu, .sigma], .var, [.mu, .sigma], []⟩,
  ⟨.std, [], [.attr .mu, .attr .sigma], [], [.mu, .sigma], .std, [.mu, .sigma], []⟩,
  ⟨.skewness, [], [.attr .mu, .attr .sigma], [], [.mu, .sigma], .skewness, [.mu, .sigma], []⟩,
  ⟨.kurtosis, [], [.attr .mu, .attr .sigma], [], [.mu, .sigma], .kurtosis, [.mu, .sigma], []⟩,
  ⟨.lmoment1, [], [.attr .mu, .attr .sigma], [], [.mu, .sigma], .lmoment1, [.mu, .sigma], []⟩,
  ⟨.lmoment2, [], [.attr .mu, .attr .sigma], [], [.mu, .sigma], .lmoment2, [.mu, .sigma], []⟩,
  ⟨.lmoment3, [], [.attr .mu, .attr .sigma], [], [.mu, .sigma], .lmoment3, [.mu, .sigma], []⟩,
  ⟨.lmoment4, [], [.attr .mu, .attr .sigma], [], [.mu, .sigma], .lmoment4, [.mu, .sigma], []⟩,
  ⟨.rvs, [.size, .random_state], [.attr .mu, .attr .sigma], [(.size, .own .size), (.rng,
    .own .random_state)], [.mu, .sigma, .size, .rng], .rvs, [.mu, .sigma], [(.size, .size),
    (.random_state, .rng)]⟩]⟩

/-- negativebinomial.py:121-171 and 180-262 -/
def wNegativeBinomial : Wiring := ⟨.negativeBinomial, "negativebinomial", [
  ⟨.pdf, [.x], [.own .x, .attr .n, .attr .p], [], [.x, .n, .p], .pdf, [.x, .n, .p], []⟩,
  ⟨.cdf, [.x], [.own .x, .attr .n, .attr .p], [], [.x, .n, .p], .cdf, [.x, .n, .p], []⟩,
  ⟨.ppf, [.q], [.own .q, .attr .n, .attr .p], [], [.q, .n, .p], .ppf, [.q, .n, .p], []⟩,
  ⟨.logpdf, [.x], [.own .x, .attr .n, .attr .p], [], [.x, .n, .p], .logpdf, [.x, .n, .p], []⟩,
  ⟨.entropy, [], [.attr .n, .attr .p], [], [.n, .p], .entropy, [.n, .p], []⟩,
  ⟨.mean, [], [.attr .n, .attr .p], [], [.n, .p], .mean, [.n, .p], []⟩,
  ⟨.mode, [], [.attr .n, .attr .p], [], [.n, .p], .mode, [.n, .p], []⟩,
  ⟨.median, [], [.attr .n, .attr .p], [], [.n, .p], .median, [.n, .p], []⟩,
  ⟨.var, [], [.attr .n, .attr .p], [], [.n, .p], .var, [.n, .p], []⟩,
  ⟨.std, [], [.attr .n, .attr .p], [], [.n, .p], .std, [.n, .p], []⟩,
  ⟨.skewness, [], [.attr .n, .attr .p], [], [.n, .p], .skewness, [.n, .p], []⟩,
  ⟨.kurtosis, [], [.attr .n, .attr .p], [], [.n, .p], .kurtosis, [.n, .p], []⟩,
  ⟨.lmoment1, [], [.attr .n, .attr .p], [], [.n, .p], .lmoment1, [.n, .p], []⟩,
  ⟨.lmoment2, [], [.attr .n, .attr .p], [], [.n, .p], .lmoment2, [.n, .p], []⟩,
  ⟨.lmoment3, [], [.attr .n, .attr .p], [], [.n, .p], .lmoment3, [.n, .p], []⟩,
  ⟨.lmoment4, [], [.attr .n, .attr .p], [], [.n, .p], .lmoment4, [.n, .p], []⟩,
  ⟨.rvs, [.size, .random_state], [.attr .n, .attr .p], [(.size, .own .size), (.rng,
    .own .random_state)], [.n, .p, .size, .rng], .rvs, [.n, .p], [(.size, .size), (.random_state,
    .rng)]⟩]⟩

/-- normal.py:109-174 and 177-284 -/
def wNormal : Wiring := ⟨.normal, "normal", [
  ⟨.pdf, [.x], [.own .x, .attr .mu, .attr .sigma], [], [.x, .mu, .sigma], .pdf, [.x, .mu, .sigma],
    []⟩,
  ⟨.cdf, [.x], [.own .x, .attr .mu, .attr .sigma], [], [.x, .mu, .sigma], .cdf, [.x, .mu, .sigma],
    []⟩,
  ⟨.ppf, [.q], [.own .q, .attr .mu, .attr .sigma], [], [.q, .mu, .sigma], .ppf, [.q, .mu, .sigma],
    []⟩,
  ⟨.sf, [.x], [.own .x, .attr .mu, .attr .sigma], [], [.x, .mu, .sigma], .sf, [.x, .mu, .sigma],
    []⟩,
  ⟨.isf, [.q], [.own .q, .attr .mu, .attr .sigma], [], [.q, .mu, .sigma], .isf, [.q, .mu, .sigma],
    []⟩,
  ⟨.logpdf, [.x], [.own .x, .attr .mu, .attr .sigma], [], [.x, .mu, .sigma], .logpdf, [.x, .mu,
    .sigma], []⟩,
  ⟨.logcdf, [.x], [.own .x, .attr .mu, .attr .sigma], [], [.x, .mu, .sigma], .logcdf, [.x, .mu,
    .sigma], []⟩,
  ⟨.logsf, [.x], [.own .x, .attr .mu, .attr .sigma], [], [.x, .mu, .sigma], .logsf, [.x, .mu,
    .sigma], []⟩,
  ⟨.logisf, [.q], [.own .q, .attr .mu, .attr .sigma], [], [.q, .mu, .sigma], .logisf, [.q, .mu,
    .sigma], []⟩,
  ⟨.entropy, [], [.attr .mu, .attr .sigma], [], [.mu, .sigma], .entropy, [.mu, .sigma], []⟩,
  ⟨.mean, [], [.attr .mu, .attr .sigma], [], [.mu, .sigma], .mean, [.mu, .sigma], []⟩,
  ⟨.mode, [], [.attr .mu, .attr .sigma], [], [.mu, .sigma], .mode, [.mu, .sigma], []⟩,
  ⟨.median, [], [.attr .mu, .attr .sigma], [], [.mu, .sigma], .median, [.mu, .sigma], []⟩,
  ⟨.var, [], [.attr .mu, .attr .sigma], [], [.mu, .sigma], .var, [.mu, .sigma], []⟩,
  ⟨.std, [], [.attr .mu, .attr .sigma], [], [.mu, .sigma], .std, [.mu, .sigma], []⟩,
  ⟨.skewness, [], [.attr .mu, .attr .sigma], [], [.mu, .sigma], .skewness, [.mu, .sigma], []⟩,
  ⟨.kurtosis, [], [.attr .mu, .attr .sigma], [], [.mu, .sigma], .kurtosis, [.mu, .sigma], []⟩,
  ⟨.lmoment1, [], [.attr .mu, .attr .sigma], [], [.mu, .sigma], .lmoment1, [.mu, .sigma], []⟩,
  ⟨.lmoment2, [], [.attr .mu, .attr .sigma], [], [.mu, .sigma], .lmoment2, [.mu, .sigma], []⟩,
  ⟨.lmoment3, [], [.attr .mu, .attr .sigma], [], [.mu, .sigma], .lmoment3, [.mu, .sigma], []⟩,
  ⟨.lmoment4, [], [.attr .mu, .attr .sigma], [], [.mu, .sigma], .lmoment4, [.mu, .sigma], []⟩,
  ⟨.rvs, [.size, .random_state], [.attr .mu, .attr .sigma], [(.size, .own .size), (.rng,
    .own .random_state)], [.mu, .sigma, .size, .rng], .rvs, [.mu, .sigma], [(.size, .size),
    (.random_state, .rng)]⟩]⟩

/-- pareto.py:65-115 and 126-208 -/
def wPareto : Wiring := ⟨.simple .pareto, "pareto", [
  ⟨.pdf, [.x], [.own .x, .attr .alpha, .attr .m], [], [.x, .alpha, .m], .pdf, [.x, .alpha, .m], []⟩,
  ⟨.cdf, [.x], [.own .x, .attr .alpha, .attr .m], [], [.x, .alpha, .m], .cdf, [.x, .alpha, .m], []⟩,
  ⟨.ppf, [.q], [.own .q, .attr .alpha, .attr .m], [], [.q, .alpha, .m], .ppf, [.q, .alpha, .m], []⟩,
  ⟨.logpdf, [.x], [.own .x, .attr .alpha, .attr .m], [], [.x, .alpha, .m], .logpdf, [.x, .alpha,
    .m], []⟩,
  ⟨.entropy, [], [.attr .alpha, .attr .m], [], [.alpha, .m], .entropy, [.alpha, .m], []⟩,
  ⟨.mean, [], [.attr .alpha, .attr .m], [], [.alpha, .m], .mean, [.alpha, .m], []⟩,
  ⟨.mode, [], [.attr .alpha, .attr .m], [], [.alpha, .m], .mode, [.alpha, .m], []⟩,
  ⟨.median, [], [.attr .alpha, .attr .m], [], [.alpha, .m], .median, [.alpha, .m], []⟩,
  ⟨.var, [], [.attr .alpha, .attr .m], [], [.alpha, .m], .var, [.alpha, .m], []⟩,
  ⟨.std, [], [.attr .alpha, .attr .m], [], [.alpha, .m], .std, [.alpha, .m], []⟩,
  ⟨.skewness, [], [.attr .alpha, .attr .m], [], [.alpha, .m], .skewness, [.alpha, .m], []⟩,
  ⟨.kurtosis, [], [.attr .alpha, .attr .m], [], [.alpha, .m], .kurtosis, [.alpha, .m], []⟩,
  ⟨.lmoment1, [], [.attr .alpha, .attr .m], [], [.alpha, .m], .lmoment1, [.alpha, .m], []⟩,
  ⟨.lmoment2, [], [.attr .alpha, .attr .m], [], [.alpha, .m], .lmoment2, [.alpha, .m], []⟩,
  ⟨.lmoment3, [], [.attr .alpha, .attr .m], [], [.alpha, .m], .lmoment3, [.alpha, .m], []⟩,
  ⟨.lmoment4, [], [.attr .alpha, .attr .m], [], [.alpha, .m], .lmoment4, [.alpha, .m], []⟩,
  ⟨.rvs, [.size, .random_state], [.attr .alpha, .attr .m], [(.size, .own .size), (.rng,
    .own .random_state)], [.alpha, .m, .size, .rng], .rvs, [.alpha, .m], [(.size, .size),
    (.random_state, .rng)]⟩]⟩

/-- poisson.py:63-113 and 122-204 -/
def wPoisson : Wiring := ⟨.simple .poisson, "poisson", [
  ⟨.pdf, [.x], [.own .x, .attr .mu], [], [.x, .mu], .pdf, [.x, .mu], []⟩,
  ⟨.cdf, [.x], [.own .x, .attr .mu], [], [.x, .mu], .cdf, [.x, .mu], []⟩,
  ⟨.ppf, [.q], [.own .q, .attr .mu], [], [.q, .mu], .ppf, [.q, .mu], []⟩,
  ⟨.logpdf, [.x], [.own .x, .attr .mu], [], [.x, .mu], .logpdf, [.x, .mu], []⟩,
  ⟨.entropy, [], [.attr .mu], [], [.mu], .entropy, [.mu], []⟩,
  ⟨.mean, [], [.attr .mu], [], [.mu], .mean, [.mu], []⟩,
  ⟨.mode, [], [.attr .mu], [], [.mu], .mode, [.mu], []⟩,
  ⟨.median, [], [.attr .mu], [], [.mu], .median, [.mu], []⟩,
  ⟨.var, [], [.attr .mu], [], [.mu], .var, [.mu], []⟩,
  ⟨.std, [], [.attr .mu], [], [.mu], .std, [.mu], []⟩,
  ⟨.skewness, [], [.attr .mu], [], [.mu], .skewness, [.mu], []⟩,
  ⟨.kurtosis, [], [.attr .mu], [], [.mu], .kurtosis, [.mu], []⟩,
  ⟨.lmoment1, [], [.attr .mu], [], [.mu], .lmoment1, [.mu], []⟩,
  ⟨.lmoment2, [], [.attr .mu], [], [.mu], .lmoment2, [.mu], []⟩,
  ⟨.lmoment3, [], [.attr .mu], [], [.mu], .lmoment3, [.mu], []⟩,
  ⟨.lmoment4, [], [.attr .mu], [], [.mu], .lmoment4, [.mu], []⟩,
  ⟨.rvs, [.size, .random_state], [.attr .mu], [(.size, .own .size), (.rng, .own .random_state)],
    [.mu, .size, .rng], .rvs, [.mu], [(.size, .size), (.random_state, .rng)]⟩]⟩

/-- rice.py:106-153 and 163-245 -/
def wRice : Wiring := ⟨.rice, "rice", [
  ⟨.pdf, [.x], [.own .x, .attr .nu, .attr .sigma], [], [.x, .nu, .sigma], .pdf, [.x, .nu, .sigma],
    []⟩,
  ⟨.cdf, [.x], [.own .x, .attr .nu, .attr .sigma], [], [.x, .nu, .sigma], .cdf, [.x, .nu, .sigma],
    []⟩,
  ⟨.ppf, [.q], [.own .q, .attr .nu, .attr .sigma], [], [.q, .nu, .sigma], .ppf, [.q, .nu, .sigma],
    []⟩,
  ⟨.logpdf, [.x], [.own .x, .attr .nu, .attr .sigma], [], [.x, .nu, .sigma], .logpdf, [.x, .nu,
    .sigma], []⟩,
  ⟨.entropy, [], [.attr .nu, .attr .sigma], [], [.nu, .sigma], .entropy, [.nu, .sigma], []⟩,
  ⟨.mean, [], [.attr .nu, .attr .sigma], [], [.nu, .sigma], .mean, [.nu, .sigma], []⟩,
  ⟨.median, [], [.attr .nu, .attr .sigma], [], [.nu, .sigma], .median, [.nu, .sigma], []⟩,
  ⟨.var, [], [.attr .nu, .attr .sigma], [], [.nu, .sigma], .var, [.nu, .sigma], []⟩,
  ⟨.std, [], [.attr .nu, .attr .sigma], [], [.nu, .sigma], .std, [.nu, .sigma], []⟩,
  ⟨.skewness, [], [.attr .nu, .attr .sigma], [], [.nu, .sigma], .skewness, [.nu, .sigma], []⟩,
  ⟨.kurtosis, [], [.attr .nu, .attr .sigma], [], [.nu, .sigma], .kurtosis, [.nu, .sigma], []⟩,
  ⟨.lmoment1, [], [.attr .nu, .attr .sigma], [], [.nu, .sigma], .lmoment1, [.nu, .sigma], []⟩,
  ⟨.lmoment2, [], [.attr .nu, .attr .sigma], [], [.nu, .sigma], .lmoment2, [.nu, .sigma], []⟩,
  ⟨.lmoment3, [], [.attr .nu, .attr .sigma], [], [.nu, .sigma], .lmoment3, [.nu, .sigma], []⟩,
  ⟨.lmoment4, [], [.attr .nu, .attr .sigma], [], [.nu, .sigma], .lmoment4, [.nu, .sigma], []⟩,
  ⟨.rvs, [.size, .random_state], [.attr .nu, .attr .sigma], [(.size, .own .size), (.rng,
    .own .random_state)], [.nu, .sigma, .size, .rng], .rvs, [.nu, .sigma], [(.size, .size),
    (.random_state, .rng)]⟩]⟩

/-- skew_studentt.py:107-154 and 163-245 -/
def wSkewStudentT : Wiring := ⟨.skewStudentT, "skew_studentt", [
  ⟨.pdf, [.x], [.own .x, .attr .a, .attr .b, .attr .mu, .attr .sigma], [], [.x, .a, .b, .mu,
    .sigma], .pdf, [.x, .a, .b, .mu, .sigma], []⟩,
  ⟨.cdf, [.x], [.own .x, .attr .a, .attr .b, .attr .mu, .attr .sigma], [], [.x, .a, .b, .mu,
    .sigma], .cdf, [.x, .a, .b, .mu, .sigma], []⟩,
  ⟨.ppf, [.q], [.own .q, .attr .a, .attr .b, .attr .mu, .attr .sigma], [], [.q, .a, .b, .mu,
    .sigma], .ppf, [.q, .a, .b, .mu, .sigma], []⟩,
  ⟨.logpdf, [.x], [.own .x, .attr .a, .attr .b, .attr .mu, .attr .sigma], [], [.x, .a, .b, .mu,
    .sigma], .logpdf, [.x, .a, .b, .mu, .sigma], []⟩,
  ⟨.entropy, [], [.attr .a, .attr .b, .attr .mu, .attr .sigma], [], [.a, .b, .mu, .sigma],
    .entropy, [.a, .b, .mu, .sigma], []⟩,
  ⟨.mean, [], [.attr .a, .attr .b, .attr .mu, .attr .sigma], [], [.a, .b, .mu, .sigma], .mean,
    [.a, .b, .mu, .sigma], []⟩,
  ⟨.median, [], [.attr .a, .attr .b, .attr .mu, .attr .sigma], [], [.a, .b, .mu, .sigma], .median,
    [.a, .b, .mu, .sigma], []⟩,
  ⟨.var, [], [.attr .a, .attr .b, .attr .mu, .attr .sigma], [], [.a, .b, .mu, .sigma], .var, [.a,
    .b, .mu, .sigma], []⟩,
  ⟨.std, [], [.attr .a, .attr .b, .attr .mu, .attr .sigma], [], [.a, .b, .mu, .sigma], .std, [.a,
    .b, .mu, .sigma], []⟩,
  ⟨.skewness, [], [.attr .a, .attr .b, .attr .mu, .attr .sigma], [], [.a, .b, .mu, .sigma],
    .skewness, [.a, .b, .mu, .sigma], []⟩,
  ⟨.kurtosis, [], [.attr .a, .attr .b, .attr .mu, .attr .sigma], [], [.a, .b, .mu, .sigma],
    .kurtosis, [.a, .b, .mu, .sigma], []⟩,
  ⟨.lmoment1, [], [.attr .a, .attr .b, .attr .mu, .attr .sigma], [], [.a, .b, .mu, .sigma],
    .lmoment1, [.a, .b, .mu, .sigma], []⟩,
  ⟨.lmoment2, [], [.attr .a, .attr .b, .attr .mu, .attr .sigma], [], [.a, .b, .mu, .sigma],
    .lmoment2, [.a, .b, .mu, .sigma], []⟩,
  ⟨.lmoment3, [], [.attr .a, .attr .b, .attr .mu, .attr .sigma], [], [.a, .b, .mu, .sigma],
    .lmoment3, [.a, .b, .mu, .sigma], []⟩,
  ⟨.lmoment4, [], [.attr .a, .attr .b, .attr .mu, .attr .sigma], [], [.a, .b, .mu, .sigma],
    .lmoment4, [.a, .b, .mu, .sigma], []⟩,
  ⟨.rvs, [.size, .random_state], [.attr .a, .attr .b, .attr .mu, .attr .sigma], [(.size,
    .own .size), (.rng, .own .random_state)], [.a, .b, .mu, .sigma, .size, .rng], .rvs, [.a, .b,
    .mu, .sigma], [(.size, .size), (.random_state, .rng)]⟩]⟩

/-- skewnormal.py:109-156 and 169-251 -/
def wSkewNormal : Wiring := ⟨.skewNormal, "skewnormal", [
  ⟨.pdf, [.x], [.own .x, .attr .mu, .attr .sigma, .attr .alpha], [], [.x, .mu, .sigma, .alpha],
    .pdf, [.x, .mu, .sigma, .alpha], []⟩,
  ⟨.cdf, [.x], [.own .x, .attr .mu, .attr .sigma, .attr .alpha], [], [.x, .mu, .sigma, .alpha],
    .cdf, [.x, .mu, .sigma, .alpha], []⟩,
  ⟨.ppf, [.q], [.own .q, .attr .mu, .attr .sigma, .attr .alpha], [], [.q, .mu, .sigma, .alpha],
    .ppf, [.q, .mu, .sigma, .alpha], []⟩,
  ⟨.logpdf, [.x], [.own .x, .attr .mu, .attr .sigma, .attr .alpha], [], [.x, .mu, .sigma, .alpha],
    .logpdf, [.x, .mu, .sigma, .alpha], []⟩,
  ⟨.entropy, [], [.attr .mu, .attr .sigma, .attr .alpha], [], [.mu, .sigma, .alpha], .entropy,
    [.mu, .sigma, .alpha], []⟩,
  ⟨.mean, [], [.attr .mu, .attr .sigma, .attr .alpha], [], [.mu, .sigma, .alpha], .mean, [.mu,
    .sigma, .alpha], []⟩,
  ⟨.median, [], [.attr .mu, .attr .sigma, .attr .alpha], [], [.mu, .sigma, .alpha], .median, [.mu,
    .sigma, .alpha], []⟩,
  ⟨.var, [], [.attr .mu, .attr .sigma, .attr .alpha], [], [.mu, .sigma, .alpha], .var, [.mu,
    .sigma, .alpha], []⟩,
  ⟨.std, [], [.attr .mu, .attr .sigma, .attr .alpha], [], [.mu, .sigma, .alpha], .std, [.mu,
    .sigma, .alpha], []⟩,
  ⟨.skewness, [], [.attr .mu, .attr .sigma, .attr .alpha], [], [.mu, .sigma, .alpha], .skewness,
    [.mu, .sigma, .alpha], []⟩,
  ⟨.kurtosis, [], [.attr .mu, .attr .sigma, .attr .alpha], [], [.mu, .sigma, .alpha], .kurtosis,
    [.mu, .sigma, .alpha], []⟩,
  ⟨.lmoment1, [], [.attr .mu, .attr .sigma, .attr .alpha], [], [.mu, .sigma, .alpha], .lmoment1,
    [.mu, .sigma, .alpha], []⟩,
  ⟨.lmoment2, [], [.attr .mu, .attr .sigma, .attr .alpha], [], [.mu, .sigma, .alpha], .lmoment2,
    [.mu, .sigma, .alpha], []⟩,
  ⟨.lmoment3, [], [.attr .mu, .attr .sigma, .attr .alpha], [], [.mu, .sigma, .alpha], .lmoment3,
    [.mu, .sigma, .alpha], []⟩,
  ⟨.lmoment4, [], [.attr .mu, .attr .sigma, .attr .alpha], [], [.mu, .sigma, .alpha], .lmoment4,
    [.mu, .sigma, .alpha], []⟩,
  ⟨.rvs, [.size, .random_state], [.attr .mu, .attr .sigma, .attr .alpha], [(.size, .own .size),
    (.rng, .own .random_state)], [.mu, .sigma, .alpha, .size, .rng], .rvs, [.mu, .sigma, .alpha],
    [(.size, .size), (.random_state, .rng)]⟩]⟩

/-- studentt.py:112-162 and 181-263 -/
def wStudentT : Wiring := ⟨.studentT, "studentt", [
  ⟨.pdf, [.x], [.own .x, .attr .nu, .attr .mu, .attr .sigma], [], [.x, .nu, .mu, .sigma], .pdf,
    [.x, .nu, .mu, .sigma], []⟩,
  ⟨.cdf, [.x], [.own .x, .attr .nu, .attr .mu, .attr .sigma], [], [.x, .nu, .mu, .sigma], .cdf,
    [.x, .nu, .mu, .sigma], []⟩,
  ⟨.ppf, [.q], [.own .q, .attr .nu, .attr .mu, .attr .sigma], [], [.q, .nu, .mu, .sigma], .ppf,
    [.q, .nu, .mu, .sigma], []⟩,
  ⟨.logpdf, [.x], [.own .x, .attr .nu, .attr .mu, .attr .sigma], [], [.x, .nu, .mu, .sigma],
    .logpdf, [.x, .nu, .mu, .sigma], []⟩,
  ⟨.entropy, [], [.attr .nu, .attr .mu, .attr .sigma], [], [.nu, .mu, .sigma], .entropy, [.nu,
    .mu, .sigma], []⟩,
  ⟨.mean, [], [.attr .nu, .attr .mu, .attr .sigma], [], [.nu, .mu, .sigma], .mean, [.nu, .mu,
    .sigma], []⟩,
  ⟨.mode, [], [.attr .nu, .attr .mu, .attr .sigma], [], [.nu, .mu, .sigma], .mode, [.nu, .mu,
    .sigma], []⟩,
  ⟨.median, [], [.attr .nu, .attr .mu, .attr .sigma], [], [.nu, .mu, .sigma], .median, [.nu, .mu,
    .sigma], []⟩,
  ⟨.var, [], [.attr .nu, .attr .mu, .attr .sigma], [], [.nu, .mu, .sigma], .var, [.nu, .mu,
    .sigma], []⟩,
  ⟨.std, [], [.attr .nu, .attr .mu, .attr .sigma], [], [.nu, .mu, .sigma], .std, [.nu, .mu,
    .sigma], []⟩,
  ⟨.skewness, [], [.attr .nu, .attr .mu, .attr .sigma], [], [.nu, .mu, .sigma], .skewness, [.nu,
    .mu, .sigma], []⟩,
  ⟨.kurtosis, [], [.attr .nu, .attr .mu, .attr .sigma], [], [.nu, .mu, .sigma], .kurtosis, [.nu,
    .mu, .sigma], []⟩,
  ⟨.lmoment1, [], [.attr .nu, .attr .mu, .attr .sigma], [], [.nu, .mu, .sigma], .lmoment1, [.nu,
    .mu, .sigma], []⟩,
  ⟨.lmoment2, [], [.attr .nu, .attr .mu, .attr .sigma], [], [.nu, .mu, .sigma], .lmoment2, [.nu,
    .mu, .sigma], []⟩,
  ⟨.lmoment3, [], [.attr .nu, .attr .mu, .attr .sigma], [], [.nu, .mu, .sigma], .lmoment3, [.nu,
    .mu, .sigma], []⟩,
  ⟨.lmoment4, [], [.attr .nu, .attr .mu, .attr .sigma], [], [.nu, .mu, .sigma], .lmoment4, [.nu,
    .mu, .sigma], []⟩,
  ⟨.rvs, [.size, .random_state], [.attr .nu, .attr .mu, .attr .sigma], [(.size, .own .size),
    (.rng, .own .random_state)], [.nu, .mu, .sigma, .size, .rng], .rvs, [.nu, .mu, .sigma],
    [(.size, .size), (.random_state, .rng)]⟩]⟩

/-- triangular.py:76-126 and 142-224 -/
def wTriangular : Wiring := ⟨.simple .triangular, "triangular", [
  ⟨.pdf, [.x], [.own .x, .attr .lower, .attr .c, .attr .upper], [], [.x, .lower, .c, .upper],
    .pdf, [.x, .lower, .c, .upper], []⟩,
  ⟨.cdf, [.x], [.own .x, .attr .lower, .attr .c, .attr .upper], [], [.x, .lower, .c, .upper],
    .cdf, [.x, .lower, .c, .upper], []⟩,
  ⟨.ppf, [.q], [.own .q, .attr .lower, .attr .c, .attr .upper], [], [.q, .lower, .c, .upper],
    .ppf, [.q, .lower, .c, .upper], []⟩,
  ⟨.logpdf, [.x], [.own .x, .attr .lower, .attr .c, .attr .upper], [], [.x, .lower, .c, .upper],
    .logpdf, [.x, .lower, .c, .upper], []⟩,
  ⟨.entropy, [], [.attr .lower, .attr .c, .attr .upper], [], [.lower, .c, .upper], .entropy,
    [.lower, .c, .upper], []⟩,
  ⟨.mean, [], [.attr .lower, .attr .c, .attr .upper], [], [.lower, .c, .upper], .mean, [.lower,
    .c, .upper], []⟩,
  ⟨.mode, [], [.attr .lower, .attr .c, .attr .upper], [], [.lower, .c, .upper], .mode, [.lower,
    .c, .upper], []⟩,
  ⟨.median, [], [.attr .lower, .attr .c, .attr .upper], [], [.lower, .c, .upper], .median,
    [.lower, .c, .upper], []⟩,
  ⟨.var, [], [.attr .lower, .attr .c, .attr .upper], [], [.lower, .c, .upper], .var, [.lower, .c,
    .upper], []⟩,
  ⟨.std, [], [.attr .lower, .attr .c, .attr .upper], [], [.lower, .c, .upper], .std, [.lower, .c,
    .upper], []⟩,
  ⟨.skewness, [], [.attr .lower, .attr .c, .attr .upper], [], [.lower, .c, .upper], .skewness,
    [.lower, .c, .upper], []⟩,
  ⟨.kurtosis, [], [.attr .lower, .attr .c, .attr .upper], [], [.lower, .c, .upper], .kurtosis,
    [.lower, .c, .upper], []⟩,
  ⟨.lmoment1, [], [.attr .lower, .attr .c, .attr .upper], [], [.lower, .c, .upper], .lmoment1,
    [.lower, .c, .upper], []⟩,
  ⟨.lmoment2, [], [.attr .lower, .attr .c, .attr .upper], [], [.lower, .c, .upper], .lmoment2,
    [.lower, .c, .upper], []⟩,
  ⟨.lmoment3, [], [.attr .lower, .attr .c, .attr .upper], [], [.lower, .c, .upper], .lmoment3,
    [.lower, .c, .upper], []⟩,
  ⟨.lmoment4, [], [.attr .lower, .attr .c, .attr .upper], [], [.lower, .c, .upper], .lmoment4,
    [.lower, .c, .upper], []⟩,
  ⟨.rvs, [.size, .random_state], [.attr .lower, .attr .c, .attr .upper], [(.size, .own .size),
    (.rng, .own .random_state)], [.lower, .c, .upper, .size, .rng], .rvs, [.lower, .c, .upper],
    [(.size, .size), (.random_state, .rng)]⟩]⟩

/-- truncatednormal.py:90-140 and 151-233 -/
def wTruncatedNormal : Wiring := ⟨.simple .truncatedNormal, "truncatednormal", [
  ⟨.pdf, [.x], [.own .x, .attr .mu, .attr .sigma, .attr .lower, .attr .upper], [], [.x, .mu,
    .sigma, .lower, .upper], .pdf, [.x, .mu, .sigma, .lower, .upper], []⟩,
  ⟨.cdf, [.x], [.own .x, .attr .mu, .attr .sigma, .attr .lower, .attr .upper], [], [.x, .mu,
    .sigma, .lower, .upper], .cdf, [.x, .mu, .sigma, .lower, .upper], []⟩,
  ⟨.ppf, [.q], [.own .q, .attr .mu, .attr .sigma, .attr .lower, .attr .upper], [], [.q, .mu,
    .sigma, .lower, .upper], .ppf, [.q, .mu, .sigma, .lower, .upper], []⟩,
  ⟨.logpdf, [.x], [.own .x, .attr .mu, .attr .sigma, .attr .lower, .attr .upper], [], [.x, .mu,
    .sigma, .lower, .upper], .logpdf, [.x, .mu, .sigma, .lower, .upper], []⟩,
  ⟨.entropy, [], [.attr .mu, .attr .sigma, .attr .lower, .attr .upper], [], [.mu, .sigma, .lower,
    .upper], .entropy, [.mu, .sigma, .lower, .upper], []⟩,
  ⟨.mean, [], [.attr .mu, .attr .sigma, .attr .lower, .attr .upper], [], [.mu, .sigma, .lower,
    .upper], .mean, [.mu, .sigma, .lower, .upper], []⟩,
  ⟨.mode, [], [.attr .mu, .attr .sigma, .attr .lower, .attr .upper], [], [.mu, .sigma, .lower,
    .upper], .mode, [.mu, .sigma, .lower, .upper], []⟩,
  ⟨.median, [], [.attr .mu, .attr .sigma, .attr .lower, .attr .upper], [], [.mu, .sigma, .lower,
    .upper], .median, [.mu, .sigma, .lower, .upper], []⟩,
  ⟨.var, [], [.attr .mu, .attr .sigma, .attr .lower, .attr .upper], [], [.mu, .sigma, .lower,
    .upper], .var, [.mu, .sigma, .lower, .upper], []⟩,
  ⟨.std, [], [.attr .mu, .attr .sigma, .attr .lower, .attr .upper], [], [.mu, .sigma, .lower,
    .upper], .std, [.mu, .sigma, .lower, .upper], []⟩,
  ⟨.skewness, [], [.attr .mu, .attr .sigma, .attr .lower, .attr .upper], [], [.mu, .sigma, .lower,
    .upper], .skewness, [.mu, .sigma, .lower, .upper], []⟩,
  ⟨.kurtosis, [], [.attr .mu, .attr .sigma, .attr .lower, .attr .upper], [], [.mu, .sigma, .lower,
    .upper], .kurtosis, [.mu, .sigma, .lower, .upper], []⟩,
  ⟨.lmoment1, [], [.attr .mu, .attr .sigma, .attr .lower, .attr .upper], [], [.mu, .sigma, .lower,
    .upper], .lmoment1, [.mu, .sigma, .lower, .upper], []⟩,
  ⟨.lmoment2, [], [.attr .mu, .attr .sigma, .attr .lower, .attr .upper], [], [.mu, .sigma, .lower,
    .upper], .lmoment2, [.mu, .sigma, .lower, .upper], []⟩,
  ⟨.lmoment3, [], [.attr .mu, .attr .sigma, .attr .lower, .attr .upper], [], [.mu, .sigma, .lower,
    .upper], .lmoment3, [.mu, .sigma, .lower, .upper], []⟩,
  ⟨.lmoment4, [], [.attr .mu, .attr .sigma, .attr .lower, .attr .upper], [], [.mu, .sigma, .lower,
    .upper], .lmoment4, [.mu, .sigma, .lower, .upper], []⟩,
  ⟨.rvs, [.size, .random_state], [.attr .mu, .attr .sigma, .attr .lower, .attr .upper], [(.size,
    .own .size), (.rng, .own .random_state)], [.mu, .sigma, .lower, .upper, .size, .rng], .rvs,
    [.mu, .sigma, .lower, .upper], [(.size, .size), (.random_state, .rng)]⟩]⟩

/-- uniform.py:71-121 and 134-216 -/
def wUniform : Wiring := ⟨.simple .uniform, "uniform", [
  ⟨.pdf, [.x], [.own .x, .attr .lower, .attr .upper], [], [.x, .lower, .upper], .pdf, [.x, .lower,
    .upper], []⟩,
  ⟨.cdf, [.x], [.own .x, .attr .lower, .attr .upper], [], [.x, .lower, .upper], .cdf, [.x, .lower,
    .upper], []⟩,
  ⟨.ppf, [.q], [.own .q, .attr .lower, .attr .upper], [], [.q, .lower, .upper], .ppf, [.q, .lower,
    .upper], []⟩,
  ⟨.logpdf, [.x], [.own .x, .attr .lower, .attr .upper], [], [.x, .lower, .upper], .logpdf, [.x,
    .lower, .upper], []⟩,
  ⟨.entropy, [], [.attr .lower, .attr .upper], [], [.lower, .upper], .entropy, [.lower, .upper],
    []⟩,
  ⟨.mean, [], [.attr .lower, .attr .upper], [], [.lower, .upper], .mean, [.lower, .upper], []⟩,
  ⟨.mode, [], [.attr .lower, .attr .upper], [], [.lower, .upper], .mode, [.lower, .upper], []⟩,
  ⟨.median, [], [.attr .lower, .attr .upper], [], [.lower, .upper], .median, [.lower, .upper], []⟩,
  ⟨.var, [], [.attr .lower, .attr .upper], [], [.lower, .upper], .var, [.lower, .upper], []⟩,
  ⟨.std, [], [.attr .lower, .attr .upper], [], [.lower, .upper], .std, [.lower, .upper], []⟩,
  ⟨.skewness, [], [.attr .lower, .attr .upper], [], [.lower, .upper], .skewness, [.lower, .upper],
    []⟩,
  ⟨.kurtosis, [], [.attr .lower, .attr .upper], [], [.lower, .upper], .kurtosis, [.lower, .upper],
    []⟩,
  ⟨.lmoment1, [], [.attr .lower, .attr .upper], [], [.lower, .upper], .lmoment1, [.lower, .upper],
    []⟩,
  ⟨.lmoment2, [], [.attr .lower, .attr .upper], [], [.lower, .upper], .lmoment2, [.lower, .upper],
    []⟩,
  ⟨.lmoment3, [], [.attr .lower, .attr .upper], [], [.lower, .upper], .lmoment3, [.lower, .upper],
    []⟩,
  ⟨.lmoment4, [], [.attr .lower, .attr .upper], [], [.lower, .upper], .lmoment4, [.lower, .upper],
    []⟩,
  ⟨.rvs, [.size, .random_state], [.attr .lower, .attr .upper], [(.size, .own .size), (.rng,
    .own .random_state)], [.lower, .upper, .size, .rng], .rvs, [.lower, .upper], [(.size, .size),
    (.random_state, .rng)]⟩]⟩

/-- vonmises.py:67-117 and 157-239 -/
def wVonMises : Wiring := ⟨.simple .vonMises, "vonmises", [
  ⟨.pdf, [.x], [.own .x, .attr .mu, .attr .kappa], [], [.x, .mu, .kappa], .pdf, [.x, .mu, .kappa],
    []⟩,
  ⟨.cdf, [.x], [.own .x, .attr .mu, .attr .kappa], [], [.x, .mu, .kappa], .cdf, [.x, .mu, .kappa],
    []⟩,
  ⟨.ppf, [.q], [.own .q, .attr .mu, .attr .kappa], [], [.q, .mu, .kappa], .ppf, [.q, .mu, .kappa],
    []⟩,
  ⟨.logpdf, [.x], [.own .x, .attr .mu, .attr .kappa], [], [.x, .mu, .kappa], .logpdf, [.x, .mu,
    .kappa], []⟩,
  ⟨.entropy, [], [.attr .mu, .attr .kappa], [], [.mu, .kappa], .entropy, [.mu, .kappa], []⟩,
  ⟨.mean, [], [.attr .mu, .attr .kappa], [], [.mu, .kappa], .mean, [.mu, .kappa], []⟩,
  ⟨.mode, [], [.attr .mu, .attr .kappa], [], [.mu, .kappa], .mode, [.mu, .kappa], []⟩,
  ⟨.median, [], [.attr .mu, .attr .kappa], [], [.mu, .kappa], .median, [.mu, .kappa], []⟩,
  ⟨.var, [], [.attr .mu, .attr .kappa], [], [.mu, .kappa], .var, [.mu, .kappa], []⟩,
  ⟨.std, [], [.attr .mu, .attr .kappa], [], [.mu, .kappa], .std, [.mu, .kappa], []⟩,
  ⟨.skewness, [], [.attr .mu, .attr .kappa], [], [.mu, .kappa], .skewness, [.mu, .kappa], []⟩,
  ⟨.kurtosis, [], [.attr .mu, .attr .kappa], [], [.mu, .kappa], .kurtosis, [.mu, .kappa], []⟩,
  ⟨.lmoment1, [], [.attr .mu, .attr .kappa], [], [.mu, .kappa], .lmoment1, [.mu, .kappa], []⟩,
  ⟨.lmoment2, [], [.attr .mu, .attr .kappa], [], [.mu, .kappa], .lmoment2, [.mu, .kappa], []⟩,
  ⟨.lmoment3, [], [.attr .mu, .attr .kappa], [], [.mu, .kappa], .lmoment3, [.mu, .kappa], []⟩,
  ⟨.lmoment4, [], [.attr .mu, .attr .kappa], [], [.mu, .kappa], .lmoment4, [.mu, .kappa], []⟩,
  ⟨.rvs, [.size, .random_state], [.attr .mu, .attr .kappa], [(.size, .own .size), (.rng,
    .own .random_state)], [.mu, .kappa, .size, .rng], .rvs, [.mu, .kappa], [(.size, .size),
    (.random_state, .rng)]⟩]⟩

/-- wald.py:116-166 and 176-258 -/
def wWald : Wiring := ⟨.wald, "wald", [
  ⟨.pdf, [.x], [.own .x, .attr .mu, .attr .lam], [], [.x, .mu, .lam], .pdf, [.x, .mu, .lam], []⟩,
  ⟨.cdf, [.x], [.own .x, .attr .mu, .attr .lam], [], [.x, .mu, .lam], .cdf, [.x, .mu, .lam], []⟩,
  ⟨.ppf, [.q], [.own .q, .attr .mu, .attr .lam], [], [.q, .mu, .lam], .ppf, [.q, .mu, .lam], []⟩,
  ⟨.logpdf, [.x], [.own .x, .attr .mu, .attr .lam], [], [.x, .mu, .lam], .logpdf, [.x, .mu, .lam],
    []⟩,
  ⟨.entropy, [], [.attr .mu, .attr .lam], [], [.mu, .lam], .entropy, [.mu, .lam], []⟩,
  ⟨.mean, [], [.attr .mu, .attr .lam], [], [.mu, .lam], .mean, [.mu, .lam], []⟩,
  ⟨.mode, [], [.attr .mu, .attr .lam], [], [.mu, .lam], .mode, [.mu, .lam], []⟩,
  ⟨.median, [], [.attr .mu, .attr .lam], [], [.mu, .lam], .median, [.mu, .lam], []⟩,
  ⟨.var, [], [.attr .mu, .attr .lam], [], [.mu, .lam], .var, [.mu, .lam], []⟩,
  ⟨.std, [], [.attr .mu, .attr .lam], [], [.mu, .lam], .std, [.mu, .lam], []⟩,
  ⟨.skewness, [], [.attr .mu, .attr .lam], [], [.mu, .lam], .skewness, [.mu, .lam], []⟩,
  ⟨.kurtosis, [], [.attr .mu, .attr .lam], [], [.mu, .lam], .kurtosis, [.mu, .lam], []⟩,
  ⟨.lmoment1, [], [.attr .mu, .attr .lam], [], [.mu, .lam], .lmoment1, [.mu, .lam], []⟩,
  ⟨.lmoment2, [], [.attr .mu, .attr .lam], [], [.mu, .lam], .lmoment2, [.mu, .lam], []⟩,
  ⟨.lmoment3, [], [.attr .mu, .attr .lam], [], [.mu, .lam], .lmoment3, [.mu, .lam], []⟩,
  ⟨.lmoment4, [], [.attr .mu, .attr .lam], [], [.mu, .lam], .lmoment4, [.mu, .lam], []⟩,
  ⟨.rvs, [.size, .random_state], [.attr .mu, .attr .lam], [(.size, .own .size), (.rng,
    .own .random_state)], [.mu, .lam, .size, .rng], .rvs, [.mu, .lam], [(.size, .size),
    (.random_state, .rng)]⟩]⟩

/-- weibull.py:70-120 and 132-214 -/
def wWeibull : Wiring := ⟨.simple .weibull, "weibull", [
  ⟨.pdf, [.x], [.own .x, .attr .alpha, .attr .beta], [], [.x, .alpha, .beta], .pdf, [.x, .alpha,
    .beta], []⟩,
  ⟨.cdf, [.x], [.own .x, .attr .alpha, .attr .beta], [], [.x, .alpha, .beta], .cdf, [.x, .alpha,
    .beta], []⟩,
  ⟨.ppf, [.q], [.own .q, .attr .alpha, .attr .beta], [], [.q, .alpha, .beta], .ppf, [.q, .alpha,
    .beta], []⟩,
  ⟨.logpdf, [.x], [.own .x, .attr .alpha, .attr .beta], [], [.x, .alpha, .beta], .logpdf, [.x,
    .alpha, .beta], []⟩,
  ⟨.entropy, [], [.attr .alpha, .attr .beta], [], [.alpha, .beta], .entropy, [.alpha, .beta], []⟩,
  ⟨.mean, [], [.attr .alpha, .attr .beta], [], [.alpha, .beta], .mean, [.alpha, .beta], []⟩,
  ⟨.mode, [], [.attr .alpha, .attr .beta], [], [.alpha, .beta], .mode, [.alpha, .beta], []⟩,
  ⟨.median, [], [.attr .alpha, .attr .beta], [], [.alpha, .beta], .median, [.alpha, .beta], []⟩,
  ⟨.var, [], [.attr .alpha, .attr .beta], [], [.alpha, .beta], .var, [.alpha, .beta], []⟩,
  ⟨.std, [], [.attr .alpha, .attr .beta], [], [.alpha, .beta], .std, [.alpha, .beta], []⟩,
  ⟨.skewness, [], [.attr .alpha, .attr .beta], [], [.alpha, .beta], .skewness, [.alpha, .beta], []⟩,
  ⟨.kurtosis, [], [.attr .alpha, .attr .beta], [], [.alpha, .beta], .kurtosis, [.alpha, .beta], []⟩,
  ⟨.lmoment1, [], [.attr .alpha, .attr .beta], [], [.alpha, .beta], .lmoment1, [.alpha, .beta], []⟩,
  ⟨.lmoment2, [], [.attr .alpha, .attr .beta], [], [.alpha, .beta], .lmoment2, [.alpha, .beta], []⟩,
  ⟨.lmoment3, [], [.attr .alpha, .attr .beta], [], [.alpha, .beta], .lmoment3, [.alpha, .beta], []⟩,
  ⟨.lmoment4, [], [.attr .alpha, .attr .beta], [], [.alpha, .beta], .lmoment4, [.alpha, .beta], []⟩,
  ⟨.rvs, [.size, .random_state], [.attr .alpha, .attr .beta], [(.size, .own .size), (.rng,
    .own .random_state)], [.alpha, .beta, .size, .rng], .rvs, [.alpha, .beta], [(.size, .size),
    (.random_state, .rng)]⟩]⟩

/-- zi_binomial.py:75-129 and 138-220 -/
def wZeroInflatedBinomial : Wiring := ⟨.simple .ziBinomial, "zibinomial", [
  ⟨.pdf, [.x], [.own .x, .attr .psi, .attr .n, .attr .p], [], [.x, .psi, .n, .p], .pdf, [.x, .psi,
    .n, .p], []⟩,
  ⟨.cdf, [.x], [.own .x, .attr .psi, .attr .n, .attr .p], [], [.x, .psi, .n, .p], .cdf, [.x, .psi,
    .n, .p], []⟩,
  ⟨.ppf, [.q], [.own .q, .attr .psi, .attr .n, .attr .p], [], [.q, .psi, .n, .p], .ppf, [.q, .psi,
    .n, .p], []⟩,
  ⟨.logpdf, [.x], [.own .x, .attr .psi, .attr .n, .attr .p], [], [.x, .psi, .n, .p], .logpdf, [.x,
    .psi, .n, .p], []⟩,
  ⟨.entropy, [], [.attr .psi, .attr .n, .attr .p], [], [.psi, .n, .p], .entropy, [.psi, .n, .p],
    []⟩,
  ⟨.mean, [], [.attr .psi, .attr .n, .attr .p], [], [.psi, .n, .p], .mean, [.psi, .n, .p], []⟩,
  ⟨.mode, [], [.attr .psi, .attr .n, .attr .p], [], [.psi, .n, .p], .mode, [.psi, .n, .p], []⟩,
  ⟨.median, [], [.attr .psi, .attr .n, .attr .p], [], [.psi, .n, .p], .median, [.psi, .n, .p], []⟩,
  ⟨.var, [], [.attr .psi, .attr .n, .attr .p], [], [.psi, .n, .p], .var, [.psi, .n, .p], []⟩,
  ⟨.std, [], [.attr .psi, .attr .n, .attr .p], [], [.psi, .n, .p], .std, [.psi, .n, .p], []⟩,
  ⟨.skewness, [], [.attr .psi, .attr .n, .attr .p], [], [.psi, .n, .p], .skewness, [.psi, .n, .p],
    []⟩,
  ⟨.kurtosis, [], [.attr .psi, .attr .n, .attr .p], [], [.psi, .n, .p], .kurtosis, [.psi, .n, .p],
    []⟩,
  ⟨.lmoment1, [], [.attr .psi, .attr .n, .attr .p], [], [.psi, .n, .p], .lmoment1, [.psi, .n, .p],
    []⟩,
  ⟨.lmoment2, [], [.attr .psi, .attr .n, .attr .p], [], [.psi, .n, .p], .lmoment2, [.psi, .n, .p],
    []⟩,
  ⟨.lmoment3, [], [.attr .psi, .attr .n, .attr .p], [], [.psi, .n, .p], .lmoment3, [.psi, .n, .p],
    []⟩,
  ⟨.lmoment4, [], [.attr .psi, .attr .n, .attr .p], [], [.psi, .n, .p], .lmoment4, [.psi, .n, .p],
    []⟩,
  ⟨.rvs, [.size, .random_state], [.attr .psi, .attr .n, .attr .p], [(.size, .own .size), (.rng,
    .own .random_state)], [.psi, .n, .p, .size, .rng], .rvs, [.psi, .n, .p], [(.size, .size),
    (.random_state, .rng)]⟩]⟩

/-- zi_negativebinomial.py:130-185 and 194-276 -/
def wZeroInflatedNegativeBinomial : Wiring := ⟨.ziNegativeBinomial, "zinegativebinomial", [
  ⟨.pdf, [.x], [.own .x, .attr .psi, .attr .n, .attr .p], [], [.x, .psi, .n, .p], .pdf, [.x, .psi,
    .n, .p], []⟩,
  ⟨.cdf, [.x], [.own .x, .attr .psi, .attr .n, .attr .p], [], [.x, .psi, .n, .p], .cdf, [.x, .psi,
    .n, .p], []⟩,
  ⟨.ppf, [.q], [.own .q, .attr .psi, .attr .n, .attr .p], [], [.q, .psi, .n, .p], .ppf, [.q, .psi,
    .n, .p], []⟩,
  ⟨.logpdf, [.x], [.own .x, .attr .psi, .attr .n, .attr .p], [], [.x, .psi, .n, .p], .logpdf, [.x,
    .psi, .n, .p], []⟩,
  ⟨.entropy, [], [.attr .psi, .attr .n, .attr .p], [], [.psi, .n, .p], .entropy, [.psi, .n, .p],
    []⟩,
  ⟨.mean, [], [.attr .psi, .attr .n, .attr .p], [], [.psi, .n, .p], .mean, [.psi, .n, .p], []⟩,
  ⟨.mode, [], [.attr .psi, .attr .n, .attr .p], [], [.psi, .n, .p], .mode, [.psi, .n, .p], []⟩,
  ⟨.median, [], [.attr .psi, .attr .n, .attr .p], [], [.psi, .n, .p], .median, [.psi, .n, .p], []⟩,
  ⟨.var, [], [.attr .psi, .attr .n, .attr .p], [], [.psi, .n, .p], .var, [.psi, .n, .p], []⟩,
  ⟨.std, [], [.attr .psi, .attr .n, .attr .p], [], [.psi, .n, .p], .std, [.psi, .n, .p], []⟩,
  ⟨.skewness, [], [.attr .psi, .attr .n, .attr .p], [], [.psi, .n, .p], .skewness, [.psi, .n, .p],
    []⟩,
  ⟨.kurtosis, [], [.attr .psi, .attr .n, .attr .p], [], [.psi, .n, .p], .kurtosis, [.psi, .n, .p],
    []⟩,
  ⟨.lmoment1, [], [.attr .psi, .attr .n, .attr .p], [], [.psi, .n, .p], .lmoment1, [.psi, .n, .p],
    []⟩,
  ⟨.lmoment2, [], [.attr .psi, .attr .n, .attr .p], [], [.psi, .n, .p], .lmoment2, [.psi, .n, .p],
    []⟩,
  ⟨.lmoment3, [], [.attr .psi, .attr .n, .attr .p], [], [.psi, .n, .p], .lmoment3, [.psi, .n, .p],
    []⟩,
  ⟨.lmoment4, [], [.attr .psi, .attr .n, .attr .p], [], [.psi, .n, .p], .lmoment4, [.psi, .n, .p],
    []⟩,
  ⟨.rvs, [.size, .random_state], [.attr .psi, .attr .n, .attr .p], [(.size, .own .size), (.rng,
    .own .random_state)], [.psi, .n, .p, .size, .rng], .rvs, [.psi, .n, .p], [(.size, .size),
    (.random_state, .rng)]⟩]⟩

/-- zi_poisson.py:75-130 and 133-215 -/
def wZeroInflatedPoisson : Wiring := ⟨.simple .ziPoisson, "zipoisson", [
  ⟨.pdf, [.x], [.own .x, .attr .psi, .attr .mu], [], [.x, .psi, .mu], .pdf, [.x, .psi, .mu], []⟩,
  ⟨.cdf, [.x], [.own .x, .attr .psi, .attr .mu], [], [.x, .psi, .mu], .cdf, [.x, .psi, .mu], []⟩,
  ⟨.ppf, [.q], [.own .q, .attr .psi, .attr .mu], [], [.q, .psi, .mu], .ppf, [.q, .psi, .mu], []⟩,
  ⟨.logpdf, [.x], [.own .x, .attr .psi, .attr .mu], [], [.x, .psi, .mu], .logpdf, [.x, .psi, .mu],
    []⟩,
  ⟨.entropy, [], [.attr .psi, .attr .mu], [], [.psi, .mu], .entropy, [.psi, .mu], []⟩,
  ⟨.mean, [], [.attr .psi, .attr .mu], [], [.psi, .mu], .mean, [.psi, .mu], []⟩,
  ⟨.mode, [], [.attr .psi, .attr .mu], [], [.psi, .mu], .mode, [.psi, .mu], []⟩,
  ⟨.median, [], [.attr .psi, .attr .mu], [], [.psi, .mu], .median, [.psi, .mu], []⟩,
  ⟨.var, [], [.attr .psi, .attr .mu], [], [.psi, .mu], .var, [.psi, .mu], []⟩,
  ⟨.std, [], [.attr .psi, .attr .mu], [], [.psi, .mu], .std, [.psi, .mu], []⟩,
  ⟨.skewness, [], [.attr .psi, .attr .mu], [], [.psi, .mu], .skewness, [.psi, .mu], []⟩,
  ⟨.kurtosis, [], [.attr .psi, .attr .mu], [], [.psi, .mu], .kurtosis, [.psi, .mu], []⟩,
  ⟨.lmoment1, [], [.attr .psi, .attr .mu], [], [.psi, .mu], .lmoment1, [.psi, .mu], []⟩,
  ⟨.lmoment2, [], [.attr .psi, .attr .mu], [], [.psi, .mu], .lmoment2, [.psi, .mu], []⟩,
  ⟨.lmoment3, [], [.attr .psi, .attr .mu], [], [.psi, .mu], .lmoment3, [.psi, .mu], []⟩,
  ⟨.lmoment4, [], [.attr .psi, .attr .mu], [], [.psi, .mu], .lmoment4, [.psi, .mu], []⟩,
  ⟨.rvs, [.size, .random_state], [.attr .psi, .attr .mu], [(.size, .own .size), (.rng,
    .own .random_state)], [.psi, .mu, .size, .rng], .rvs, [.psi, .mu], [(.size, .size),
    (.random_state, .rng)]⟩]⟩

/-- all families with scalar parameters -/
def wirings : List Wiring :=
  [wAsymmetricLaplace, wBernoulli, wBeta, wBetaBinomial, wBetaScaled,
   wBinomial, wCauchy, wChiSquared, wDiscreteUniform, wDiscreteWeibull,
   wExGaussian, wExponential, wGamma, wGeometric, wGumbel,
   wHalfCauchy, wHalfNormal, wHalfStudentT, wHyperGeometric, wInverseGamma,
   wKumaraswamy, wLaplace, wLogistic, wLogitNormal, wLogLogistic,
   wLogNormal, wMoyal, wNegativeBinomial, wNormal, wPareto,
   wPoisson, wRice, wSkewStudentT, wSkewNormal, wStudentT,
   wTriangular, wTruncatedNormal, wUniform, wVonMises, wWald,
   wWeibull, wZeroInflatedBinomial, wZeroInflatedNegativeBinomial, wZeroInflatedPoisson]

/-- the call that reaches the library -/
structure Call (α : Type) where
  module : String
  fn : Meth
  args : List α
  kws : List (Id × α)

/-- Binding of the arguments of the method to the parameters of the wrapper: positional ones first,
then keywords.  A wrong number of arguments or a keyword that is not a parameter is a `TypeError`,
a name that is neither a parameter of the method nor (in the wrapper) of the wrapper a `NameError`.
The wrappers have no default values. -/
def Row.bind (r : Row) : Except Err (List (Id × Arg)) :=
  if (r.call ++ r.kw.map (·.2)).any (fun a => match a with
      | .own i => !r.own.contains i
      | .attr _ => false) then .error .nameError
  else if r.call.length + r.kw.length ≠ r.params.length then .error .typeError
  else if (r.params.drop r.call.length).any (fun i => (r.kw.lookup i).isNone) then .error .typeError
  else .ok (r.params.zip r.call ++ r.kw)

/-- the value of a name inside the wrapper -/
def look (env : List (Id × Arg)) (i : Id) : Except Err Arg :=
  match env.lookup i with
  | some a => .ok a
  | none => .error .nameError

/-- the arguments the library function gets, in terms of the parameters of the method and the
attributes of the object -/
def Row.resolve (r : Row) : Except Err (List Arg × List (Id × Arg)) := do
  let env ← r.bind
  let args ← r.extArgs.mapM (look env)
  let kws ← r.extKw.mapM fun p => do
    let a ← look env p.2
    return (p.1, a)
  return (args, kws)

/-- the value of an argument -/
def Arg.val {α : Type} (user attr : Id → α) : Arg → α
  | .own i => user i
  | .attr i => attr i

/-- `obj.m(...)`: the method of the class, called with the arguments `user` on an object with the
attributes `attr`.  A method the class does not define is inherited and not modelled here
(`attributeError`). -/
def Wiring.call {α : Type} (w : Wiring) (m : Meth) (user attr : Id → α) :
    Except Err (Call α) :=
  match w.rows.find? (·.meth = m) with
  | none => .error .attributeError
  | some r => do
    let (args, kws) ← r.resolve
    return ⟨w.module, r.ext, args.map (Arg.val user attr),
      kws.map fun p => (p.1, p.2.val user attr)⟩

/-- What ZeroInflatedPoisson and ZeroInflatedNegativeBinomial do to the density of the library:
zi_poisson.py:75-81, zi_negativebinomial.py:130-136.  `none` is `nan`. -/
noncomputable def ziPdf (x : Option EReal) (r : Option ℝ) : Option ℝ :=
  let r := match x with
    | some v => if v < 0 then some 0 else r
    | none => r
  match x with
  | none => none
  | some v => if v = ⊥ ∨ v = ⊤ then none else r

/-- The same for ZeroInflatedBinomial: zi_binomial.py:75-80. -/
noncomputable def ziBinomialPdf (n : ℝ) (x : Option EReal) (r : Option ℝ) : Option ℝ :=
  match x with
  | none => some 0
  | some v => if v < 0 ∨ (n : EReal) < v ∨ (v = ⊥ ∨ v = ⊤) then some 0 else r

end Verif.Delegate
