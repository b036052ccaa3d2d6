import Verif.Lemmas.Info

/-!
# C68: `info()` lists equivalent parametrisations
-/

set_option linter.unusedSimpArgs false

namespace Verif.Props
open Verif Verif.Param Verif.Spec Verif.Info

/-- C68: what `info()` lists under `parametrizations` are the documented parametrisations, whenever
it lists any; the families with documented alternatives for which it lists none are Rice, SkewNormal,
SkewStudentT and ZeroInflatedNegativeBinomial. -/
theorem info_lists_partial (f : Family) :
    (∀ l, parametrizations f = some l → l = (ways f).map Way.allowed) ∧
    (parametrizations f = none ↔ (ways f).length ≤ 1 ∨
      f = .rice ∨ f = .skewNormal ∨ f = .skewStudentT ∨ f = .ziNegativeBinomial) := by
  cases f with
  | simple s => cases s <;> simp [parametrizations, ways]
  | _ => simp [parametrizations, ways, Way.plain]

/-- C68: `Rice` documents two parametrisations, `info()` lists none. -/
theorem info_lists_wrong : ∃ f, 2 ≤ (ways f).length ∧ parametrizations f = none :=
  ⟨.rice, by simp [ways], rfl⟩

/-- C68: for every history of a frozen distribution of a listed family, and every row of the table
`info()["parametrization_values"]` that has a value for each of its parameters and is not a precision
row: building the family from that row (on an object in any state) succeeds and gives a distribution
with exactly the same table, i.e. the rows describe one and the same distribution.
Missing: precision rows (false, `info_precision_drifts`) and the families not listed. -/
theorem info_rows_equivalent_partial (f : Family) (o o₂ : Obj) (h : Reach f o)
    (hf : o.frozen = true) (table : List (List String × List (Option ℝ)))
    (ht : parametrizationValues f o = some table) (names : List String) (vals : List (Option ℝ))
    (hrow : (names, vals) ∈ table) (hex : names ∈ exactNames f) (hv : ∀ v ∈ vals, v.isSome) :
    ∃ o', parametrize f (dictOf names vals) o₂ = .ok o' ∧ o'.frozen = true ∧
      parametrizationValues f o' = some table := by
  have hl : parametrizations f ≠ none := by
    intro hl; simp [parametrizationValues, hl] at ht
  obtain ⟨cs, o₁, hd, hu⟩ := reach_updated f o hl h hf
  have hvals : vals = report f names cs := by
    rw [← attr_report f cs o₁ o names hl hd hex hu]
    obtain ⟨l, hl'⟩ := Option.ne_none_iff_exists'.mp hl
    simp only [parametrizationValues, hl', hf, if_true, Option.some.injEq] at ht
    subst ht
    simp only [List.mem_map, Prod.mk.injEq] at hrow
    obtain ⟨ps, -, rfl, rfl⟩ := hrow
    rfl
  subst hvals
  obtain ⟨o₃, h3⟩ := rebuild_updated f names cs o₂ hl hex (canonDom_of_report f cs names hd hv)
  have hsome : ∃ o', update f cs o₃ = .ok o' := by
    cases f <;> try (simp [parametrizations] at hl; done)
    all_goals
      unfold update at hu
      split at hu <;> first
        | exact ⟨_, rfl⟩
        | simp_all
  obtain ⟨o', ho'⟩ := hsome
  exact ⟨o', by rw [h3, ho'], updated_frozen f cs o₃ o' hl ho',
    by rw [table_congr f cs o₃ o₁ o' o ho' hu, ht]⟩

/-- C68: values are listed exactly for the frozen objects of the listed families, one row for each parametrisation and
one entry for each of its names. -/
theorem info_values_present (f : Family) (o : Obj) :
    ((parametrizationValues f o).isSome ↔ o.frozen = true ∧ (parametrizations f).isSome) ∧
    ∀ l table, parametrizations f = some l → parametrizationValues f o = some table →
      table.map Prod.fst = l ∧ ∀ row ∈ table, row.2 = row.1.map o.attr := by
  constructor
  · unfold parametrizationValues
    cases parametrizations f <;> cases o.frozen <;> simp
  · intro l table hl ht
    unfold parametrizationValues at ht
    rw [hl] at ht
    cases hf : o.frozen <;> simp only [hf, Bool.false_eq_true, if_false, if_true, reduceCtorEq, Option.some.injEq] at ht
    subst ht
    constructor
    · rw [List.map_map]
      exact List.map_id _
    · intro row hrow
      obtain ⟨ps, -, rfl⟩ := List.mem_map.1 hrow
      rfl

/-- C68: no row of the table lacks a value, except for Bernoulli (`logit_p` at 0 and 1) and
InverseGamma (`info_invgamma_row`). -/
theorem info_rows_present (f : Family) (o : Obj) (h : Reach f o) (hf : o.frozen = true)
    (h1 : f ≠ .bernoulli) (h2 : f ≠ .inverseGamma) (hl : ∃ l, parametrizations f = some l) :
    ∃ table, parametrizationValues f o = some table ∧ ∀ row ∈ table, ∀ v ∈ row.2, v.isSome := by
  obtain ⟨l, hl⟩ := hl
  obtain ⟨cs, o₁, hd, hu⟩ := reach_updated f o (by simp [hl]) h hf
  refine ⟨l.map fun ps => (ps, ps.map o.attr), by simp [parametrizationValues, hl, hf], ?_⟩
  exact rows_present f cs o₁ o h1 h2 hu _ (by simp [parametrizationValues, hl, hf])

/-- C68: the row of an `InverseGamma` in which values can be missing (`nan`): `mu` is there exactly
for `alpha > 1`, `sigma` exactly for `alpha > 2`. -/
theorem info_invgamma_row (a b : ℝ) (o : Obj) :
    ∃ o', parametrize .inverseGamma (kwOf [("alpha", a), ("beta", b)]) o = .ok o' ∧
      ∃ mu sigma, parametrizationValues .inverseGamma o' =
        some [(["alpha", "beta"], [some a, some b]), (["mu", "sigma"], [mu, sigma])] ∧
        (mu.isSome ↔ 1 < a) ∧ (sigma.isSome ↔ 2 < a) := by
  refine ⟨invGammaUpdate a b _, by
    simp [parametrize, gammaLikeParam, kwOf, List.lookup, anyNotNone]; rfl, invGammaToMu a b,
    invGammaToSigma a b, ?_, ?_, ?_⟩
  · simp only [parametrizationValues, parametrizations, invGammaUpdate_frozen, if_true]
    simp only [invGammaUpdate, apply_ite Obj.attr, ite_self]
    simp [Obj.setAll, Obj.set]
  · unfold invGammaToMu; split_ifs <;> simp_all
  · unfold invGammaToSigma; split_ifs <;> simp_all

/-- C68: the precision rows are not equivalent to the others: rebuilding any `Normal(mu, sigma)` from
the `(mu, tau)` row of its own `info()` gives a strictly larger `sigma`. -/
theorem info_precision_drifts (mu sigma : ℝ) (hs : 0 < sigma) :
    ∃ o tau o' sigma', construct .normal (kwOf [("mu", mu), ("sigma", sigma)]) = .ok o ∧
      parametrizationValues .normal o =
        some [(["mu", "sigma"], [some mu, some sigma]), (["mu", "tau"], [some mu, some tau])] ∧
      construct .normal (kwOf [("mu", mu), ("tau", tau)]) = .ok o' ∧
      o'.attr "sigma" = some sigma' ∧ sigma < sigma' := by
  have htp : 0 < toPrecision sigma := by unfold toPrecision; have := eps_pos; positivity
  refine ⟨normalUpdate mu sigma { (blank.setAll [("mu", some mu), ("sigma", some sigma)]) with
      names := ["mu", "sigma"] }, toPrecision sigma,
    normalUpdate mu (1 / Real.sqrt (toPrecision sigma))
      { ((blank.set "tau" (some (toPrecision sigma))).setAll
        [("mu", some mu), ("sigma", some (1 / Real.sqrt (toPrecision sigma)))]) with
        names := ["mu", "tau"] },
    1 / Real.sqrt (toPrecision sigma), ?_, ?_, ?_, ?_, ?_⟩
  · simp [construct, parametrize, normalParam, kwOf, List.lookup, allNotNone]
  · simp only [parametrizationValues, parametrizations, normalUpdate_frozen, if_true]
    simp only [normalUpdate, apply_ite Obj.attr, ite_self]
    simp [Obj.setAll, Obj.set]
  · simp [construct, parametrize, normalParam, kwOf, List.lookup, allNotNone, fromPrecision_ok htp]
  · simp only [normalUpdate, apply_ite Obj.attr, ite_self]
    simp [Obj.setAll, Obj.set]
  · have h1 := (precision_of_sigma sigma hs.ne').2
    rw [lt_div_iff₀ (Real.sqrt_pos.mpr htp)]
    have h2 : Real.sqrt (toPrecision sigma) < 1 / sigma := by
      rw [Real.sqrt_lt' (by positivity), div_pow, one_pow]
      exact h1
    calc sigma * Real.sqrt (toPrecision sigma) < sigma * (1 / sigma) := by gcongr
      _ = 1 := by field_simp

/-- a non-trivial instance: the `(mu, sigma)` row of `Gamma(alpha=4, beta=2)` -/
example : ∃ o table, Reach .gamma o ∧ o.frozen = true ∧ parametrizationValues .gamma o = some table ∧
    (["mu", "sigma"], [some (2 : ℝ), some 1]) ∈ table := by
  have hd : InDom .gamma (kwOf [("alpha", 4), ("beta", 2)]) := by
    refine ⟨?_, ⟨by simp, by simp⟩, by simp⟩
    intro k x hx
    simp only [kwOf, List.lookup] at hx
    split at hx
    · simp at hx; subst hx; simp [inRange]
    · split at hx
      · simp at hx; subst hx; simp [inRange]
      · simp at hx
  have hq : Real.sqrt 4 / 2 = 1 := by
    rw [show (4 : ℝ) = 2 ^ 2 by norm_num, Real.sqrt_sq (by norm_num)]; norm_num
  refine ⟨gammaUpdate 4 2 _, _, .build hd (by
    simp [construct, parametrize, gammaLikeParam, kwOf, List.lookup, anyNotNone]; rfl), rfl, rfl, ?_⟩
  simp only [gammaUpdate, apply_ite Obj.attr, ite_self]
  simp [Obj.setAll, Obj.set, gammaToMuSigma, hq]
  norm_num

end Verif.Props
