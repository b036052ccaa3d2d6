import Verif.Model.TruncatedMoments

/-!
# Moments and entropies that `Hurdle` and `Mixture` compute on a grid, discrete bases

hurdle.py:77-107 and 164-170, mixture.py:96-134, distribution_helper.py:86-105.
-/

namespace Verif.GridMoments
open Verif Verif.Modifier Verif.Interval Verif.TruncatedMoments

/-- distributions.py:608-661 for a discrete distribution with this support and quantile function
(`none` is NaN), default number of points -/
noncomputable def gridXvals (lo hi : EReal) (ppf : ℝ → Option EReal) (s : Support) : Except Err (List ℤ) := do
  let (l, u) ← (match s with
    | .pair l u => .ok (some l, some u)
    | .other => .error .valueError
    | .full => .ok (if lo = ⊤ ∨ lo = ⊥ then ppf 0.0001 else some lo,
                    if hi = ⊤ ∨ hi = ⊥ then ppf 0.9999 else some hi)
    | .restricted => .ok (ppf 0.0001, ppf 0.9999) : Except Err (Option EReal × Option EReal))
  let u ← pyIntOpt u
  let l ← pyIntOpt l
  return discreteXvals l u 200

/-- `np.sum(f(x_values) * pdf)` -/
noncomputable def gridExpect (pdf : ℝ → ℝ) (f : ℝ → ℝ) (xs : List ℤ) : ℝ :=
  (xs.map fun (x : ℤ) => f (x : ℝ) * pdf (x : ℝ)).sum

/-! ## Hurdle -/

/-- `Hurdle.support` is the base support (hurdle.py:74) -/
noncomputable def hurdleXvals (b : Base) (psi : ℝ) (s : Support) : Except Err (List ℤ) :=
  gridXvals b.lo b.hi (hurdlePpf b psi) s

/-- hurdle.py:77-83 -/
noncomputable def hurdleMean (b : Base) (psi : ℝ) : Except Err ℝ := do
  let xs ← hurdleXvals b psi .full
  return gridExpect (hurdlePdf b psi) (fun x => x) xs

/-- hurdle.py:98-104 -/
noncomputable def hurdleVar (b : Base) (psi : ℝ) : Except Err ℝ := do
  let xs ← hurdleXvals b psi .full
  let m ← hurdleMean b psi
  return gridExpect (hurdlePdf b psi) (fun x => (x - m) ^ 2) xs

/-- hurdle.py:95-96 -/
noncomputable def hurdleMedian (b : Base) (psi : ℝ) : Option EReal := hurdlePpf b psi 0.5

/-- hurdle.py:164-170 -/
noncomputable def hurdleEntropy (b : Base) (psi : ℝ) : Except Err (Option ℝ) := do
  let xs ← hurdleXvals b psi .restricted
  return (nanSum (xs.map fun (x : ℤ) => entropyTerm (hurdleLogpdf b psi (x : ℝ)))).map fun t => -t

/-! ## Mixture -/

/-- mixture.py:67-70 (`np.min` of an empty list raises ValueError) -/
noncomputable def mixSupport : List Base → Except Err (EReal × EReal)
  | [] => .error .valueError
  | b :: bs => .ok (bs.foldl (fun a c => min a c.lo) b.lo, bs.foldl (fun a c => max a c.hi) b.hi)

/-- the grid of a mixture; `ppf` is the outcome of the numerical inversion `find_ppf` -/
noncomputable def mixXvals (bs : List Base) (ppf : ℝ → Option EReal) (s : Support) : Except Err (List ℤ) := do
  let (lo, hi) ← mixSupport bs
  gridXvals lo hi ppf s

/-- mixture.py:127-128 (NaN, `none`, for a negative variance) -/
noncomputable def mixStd (mvs : List (ℝ × ℝ)) (ws : List ℝ) : Option ℝ :=
  if mixVar mvs ws < 0 then none else some (Real.sqrt (mixVar mvs ws))

/-- mixture.py:130-134 with distribution_helper.py:86-105: the standardised moment of order `k` (minus 3 for
the kurtosis); NaN if the standard deviation is NaN or zero -/
noncomputable def mixStandard (k : ℕ) (bs : List Base) (mvs : List (ℝ × ℝ)) (ws : List ℝ)
    (ppf : ℝ → Option EReal) : Except Err (Option ℝ) := do
  let xs ← mixXvals bs ppf .full
  return (mixStd mvs ws).bind fun s =>
    if s = 0 then none
    else some (gridExpect (mixPdf bs ws) (fun x => ((x - mixMean (mvs.map Prod.fst) ws) / s) ^ k) xs)

/-- mixture.py:130-131 -/
noncomputable def mixSkewness (bs : List Base) (mvs : List (ℝ × ℝ)) (ws : List ℝ) (ppf : ℝ → Option EReal) :
    Except Err (Option ℝ) := mixStandard 3 bs mvs ws ppf

/-- mixture.py:133-134 -/
noncomputable def mixKurtosis (bs : List Base) (mvs : List (ℝ × ℝ)) (ws : List ℝ) (ppf : ℝ → Option EReal) :
    Except Err (Option ℝ) := do
  let r ← mixStandard 4 bs mvs ws ppf
  return r.map (· - 3)

/-- mixture.py:96-105: terms that are not finite count as zero -/
noncomputable def mixEntropy (bs : List Base) (ws : List ℝ) (ppf : ℝ → Option EReal) : Except Err ℝ := do
  let xs ← mixXvals bs ppf .restricted
  return -((xs.map fun (x : ℤ) => (entropyTerm (mixLogpdf bs ws (x : ℝ))).getD 0).sum)

end Verif.GridMoments
