import Verif.Spec.FromPymc
import Mathlib.Tactic

/-!
# C69: compound PyMC variables and Prior objects
-/

namespace Verif.Props
open Verif Verif.Ppl Verif.Spec.FromPymc

private theorem filterMap_num (p : List (Option ℝ)) : (p.map Input.num).filterMap Input.number = p := by
  induction p with
  | nil => rfl
  | cons a l ih => simp [Input.number, ih]

private theorem filterMap_num' (p : List (Option ℝ)) :
    p.filterMap (fun x => (Input.num x).number) = p := by
  have := filterMap_num p
  rwa [List.filterMap_map] at this

private theorem params_reparametrize (f : Fam) (h : f.Valid) :
    ∃ a, reparametrize f.name f.params = .ok a ∧ f.object = .family f.name a := by
  cases f with
  | asymmetricLaplace mu b kappa => exact ⟨_, by simp [reparametrize, Fam.name, Fam.params], rfl⟩
  | exponential lam =>
    have h : (0 : ℝ) < lam := h
    exact ⟨_, by simp [reparametrize, Fam.name, Fam.params, invOpt, h.ne'], rfl⟩
  | gamma alpha beta =>
    have h : (0 : ℝ) < beta := h
    exact ⟨_, by simp [reparametrize, Fam.name, Fam.params, invOpt, h.ne'], rfl⟩
  | rice nu sigma =>
    have h : (0 : ℝ) < sigma := h
    have h2 : nu / sigma * sigma = nu := by field_simp
    exact ⟨_, by simp [reparametrize, Fam.name, Fam.params, h2], rfl⟩
  | skewStudentT mu sigma a b => exact ⟨_, by simp [reparametrize, Fam.name, Fam.params], rfl⟩
  | wald mu lam => exact ⟨_, by simp [reparametrize, Fam.name, Fam.params], rfl⟩
  | betaBinomial alpha beta n => exact ⟨_, by simp [reparametrize, Fam.name, Fam.params], rfl⟩
  | negativeBinomial mu alpha =>
    obtain ⟨hm, ha⟩ : (0 : ℝ) ≤ mu ∧ 0 < alpha := h
    have h1 : mu + alpha ≠ 0 := by linarith
    have h2 : alpha / (mu + alpha) ≠ 0 := div_ne_zero ha.ne' h1
    have h3 : alpha * (1 - alpha / (mu + alpha)) / (alpha / (mu + alpha)) = mu := by field_simp; ring
    exact ⟨_, by simp only [reparametrize, Fam.name, Fam.params]; simp [h2, h3], rfl⟩
  | hyperGeometric bigN k n => exact ⟨_, by simp [reparametrize, Fam.name, Fam.params], rfl⟩
  | halfNormal sigma => exact ⟨_, by simp [reparametrize, Fam.name, Fam.params], rfl⟩
  | logitNormal mu sigma => exact ⟨_, by simp [reparametrize, Fam.name, Fam.params], rfl⟩
  | other name params =>
    obtain ⟨-, h⟩ := h
    simp only [special, List.mem_cons, List.not_mem_nil, or_false, not_or] at h
    obtain ⟨h1, h2, h3, h4, h5, h6, h7, h8, h9, -, -⟩ := h
    refine ⟨.positional params, ?_, rfl⟩
    simp only [Fam.name, Fam.params]
    rw [reparametrize.eq_def, if_neg h1, if_neg h2, if_neg h3, if_neg h4, if_neg h5, if_neg h6, if_neg h7,
      if_neg h8, if_neg h9]

private theorem name_exists (f : Fam) (h : f.Valid) : f.name ∈ Catalog.existing := by
  cases f with
  | other name params =>
    have h := h.1
    simp only [Fam.name, Catalog.existing]
    simp only [List.mem_append] at h ⊢
    tauto
  | _ => simp only [Fam.name]; decide +kernel

private theorem fromNode_family (f : Fam) (h : f.Valid) :
    fromNode f.name f.inputs = reparametrize f.name f.params := by
  cases f with
  | other name params =>
    have h := h.2
    simp only [special, List.mem_cons, List.not_mem_nil, or_false, not_or] at h
    obtain ⟨-, -, -, -, -, -, -, -, -, h10, h11⟩ := h
    simp [fromNode, skipInputs, Fam.name, Fam.inputs, Fam.params, h10, h11, filterMap_num']
  | _ => simp [fromNode, skipInputs, Fam.name, Fam.inputs, Fam.params, Input.number]

private theorem inputs_plain (f : Fam) (h : Plain f) : f.inputs = .other :: .other :: f.params.map .num := by
  cases f with
  | halfNormal s => exact absurd rfl (h s).1
  | logitNormal m s => exact absurd rfl ((h s).2 m)
  | _ => rfl

private theorem lookup_family (f : Fam) (h : f.Valid) (e : Err) :
    lookup f.name e (reparametrize f.name f.params) = .ok f.object := by
  obtain ⟨a, h1, h2⟩ := params_reparametrize f h
  rw [h1, h2, lookup, if_pos (name_exists f h)]

private theorem bounds_spec (l u : Option ℝ) : bounds l u = (lowerBound l, upperBound u) := by
  cases l <;> cases u <;> rfl

private theorem opName_node (w : Written) (h : w.Valid) : w.node.opName ≠ "DiracDelta" := by
  cases w with
  | family f =>
    have := name_exists f h
    simp only [Written.node, Node.opName]
    rintro hh
    rw [hh] at this
    revert this
    decide +kernel
  | truncated b l u =>
    simp only [Written.node, Node.opName]
    intro hh
    have := congrArg String.toList hh
    simp at this
  | _ => simp [Written.node, Node.opName]

mutual
/-- Whatever the user writes - a family, or censored, truncated, zero-inflated, hurdle and mixture
variables nested to any depth - is converted to the PreliZ object with the same structure, parameters,
bounds and weights.  Missing: HalfNormal and LogitNormal under Truncated or Hurdle, and mixtures whose
first component is a point mass (see below). -/
theorem from_pymc_compound_partial : ∀ (w : Written), w.Valid → fromPymc w.node = .ok w.object
  | .family f, h => by
    simp only [Written.node, fromPymc, Written.object, fromNode_family f h]
    exact lookup_family f h _
  | .censored base lower upper, h => by
    simp only [Written.node, fromPymc, Written.object]
    rw [from_pymc_compound_partial base h, bounds_spec]
  | .truncated base lower upper, h => by
    obtain ⟨h, hp⟩ := h
    simp only [Written.node, fromPymc, Written.object, fromTruncated, bound, inputs_plain base hp]
    simp [filterMap_num', lookup_family base h, bounds_spec, List.dropLast_append_of_ne_nil]
  | .zeroInflated (.poisson mu) psi, h => by
    simp [Written.node, fromPymc, Written.object, Inflated.node, Node.opName, fromZeroInflated,
      Node.inputs, zeroInflated, Input.number, lookup]
    decide +kernel
  | .zeroInflated (.binomial n p) psi, h => by
    simp [Written.node, fromPymc, Written.object, Inflated.node, Node.opName, fromZeroInflated,
      Node.inputs, zeroInflated, Input.number, lookup]
    decide +kernel
  | .zeroInflated (.negativeBinomial mu alpha) psi, h => by
    obtain ⟨hm, ha⟩ : (0 : ℝ) ≤ mu ∧ 0 < alpha := h
    have h1 : mu + alpha ≠ 0 := by linarith
    have h3 : alpha * (1 - alpha / (mu + alpha)) / (alpha / (mu + alpha)) = mu := by field_simp; ring
    simp [Written.node, fromPymc, Written.object, Inflated.node, Node.opName, fromZeroInflated,
      Node.inputs, zeroInflated, Input.number, lookup, h3, h1, ha.ne']
    decide +kernel
  | .hurdle base psi, h => by
    obtain ⟨h, hp⟩ := h
    simp [Written.node, fromPymc, Written.object, fromHurdle, inputs_plain base hp, filterMap_num',
      lookup_family base h]
  | .mixture weights [], h => absurd rfl h.1
  | .mixture weights (c :: cs), h => by
    have hc : c.node.opName ≠ "DiracDelta" := opName_node c h.2.1
    have := from_pymc_compound_list (c :: cs) h.2
    simp only [Written.node, Written.nodes, fromPymc, List.head?_cons, if_neg hc, Written.object]
    simp only [Written.nodes] at this
    rw [this]

private theorem from_pymc_compound_list : ∀ (l : List Written), Written.Valids l →
    fromPymcs (Written.nodes l) = .ok (Written.objects l)
  | [], _ => rfl
  | c :: cs, h => by
    simp only [Written.nodes, fromPymcs, Written.objects]
    rw [from_pymc_compound_partial c h.1, from_pymc_compound_list cs h.2]
end

/-- a mixture of a Gamma and a Half-Normal censored at 2 -/
example : fromPymc (Written.mixture [3/10, 7/10]
      [.family (.gamma 2 4), .censored (.family (.halfNormal (some 3))) (some 2) none]).node =
    .ok (.mixture [.family "Gamma" (.named [("alpha", some 2), ("beta", some 4)]),
      .censored (.family "HalfNormal" (.positional [some 3])) ((2 : ℝ) : EReal) ⊤]
      [some (3/10), some (7/10)]) := by
  rw [from_pymc_compound_partial]
  · rfl
  · refine ⟨by simp, ?_, ?_, trivial⟩
    · show (0 : ℝ) < 4
      norm_num
    · trivial

/-- negation: if the node of a truncated variable has the inputs of its base followed by the bounds, a
truncated HalfNormal is built with the location as an additional first argument, and a truncated
LogitNormal without its first parameter -/
theorem from_pymc_truncated_offset (sigma mu : ℝ) (lower upper : Option ℝ) :
    fromPymc (Written.truncated (.halfNormal (some sigma)) lower upper).node =
      .ok (.truncated (.family "HalfNormal" (.positional [some 0, some sigma]))
        (lowerBound lower) (upperBound upper)) ∧
    fromPymc (Written.truncated (.logitNormal (some mu) (some sigma)) lower upper).node =
      .ok (.truncated (.family "LogitNormal" (.positional [some sigma]))
        (lowerBound lower) (upperBound upper)) := by
  have e1 : "HalfNormal" ∈ Catalog.existing := by decide +kernel
  have e2 : "LogitNormal" ∈ Catalog.existing := by decide +kernel
  constructor <;>
    simp only [Written.node, fromPymc, fromTruncated, bound, Fam.inputs, Fam.params, Fam.name, lookup,
      if_pos e1, if_pos e2, bounds_spec] <;>
    simp [reparametrize, Input.number]

/-- negation: a mixture that starts with a point mass at `c` is taken for zero inflation whatever `c`
is, and components between the first and the last are dropped -/
theorem from_pymc_point_mass (c w0 w1 w2 mu nu : ℝ) :
    fromPymc (.mixture [some w0, some w1]
        [.plain "DiracDelta" [.other, .other, .num (some c)],
         .plain "Poisson" [.other, .other, .num (some mu)]]) =
      .ok (.family "ZeroInflatedPoisson" (.positional [some w1, some mu])) ∧
    fromPymc (.mixture [some w0, some w1, some w2]
        [.plain "DiracDelta" [.other, .other, .num (some c)],
         .plain "Poisson" [.other, .other, .num (some nu)],
         .plain "Poisson" [.other, .other, .num (some mu)]]) =
      .ok (.family "ZeroInflatedPoisson" (.positional [some w1, some mu])) := by
  constructor <;>
    simp [fromPymc, Node.opName, fromZeroInflated, Node.inputs, zeroInflated, Input.number, lookup]
  · decide +kernel
  · decide +kernel

/-- an operator PreliZ has no class for is refused, at any position -/
theorem from_pymc_unknown (name : String) (inputs : List Input) (h : name ∉ Catalog.existing)
    (lower upper : Option ℝ) (weights : List ℝ) (before after : List Written)
    (hb : Written.Valids before) (hd : before = [] → name ≠ "DiracDelta") :
    fromPymc (.plain name inputs) = .error .runtimeError ∧
    fromPymc (.censored (.plain name inputs) lower upper) = .error .runtimeError ∧
    fromPymc (.mixture (weights.map some)
      (Written.nodes before ++ .plain name inputs :: Written.nodes after)) = .error .runtimeError := by
  have h0 : fromPymc (.plain name inputs) = .error .runtimeError := by simp [fromPymc, lookup, h]
  have hl : ∀ l : List Written, Written.Valids l →
      fromPymcs (Written.nodes l ++ .plain name inputs :: Written.nodes after) = .error .runtimeError := by
    intro l
    induction l with
    | nil => intro _; simp [Written.nodes, fromPymcs, h0]
    | cons c cs ih =>
      intro hv
      simp only [Written.nodes, List.cons_append, fromPymcs]
      rw [from_pymc_compound_partial c hv.1, ih hv.2]
  refine ⟨h0, ?_, ?_⟩
  · simp [fromPymc, lookup, h]
  · cases before with
    | nil =>
      have := hl [] trivial
      simp only [Written.nodes, List.nil_append] at this ⊢
      simp only [fromPymc, List.head?_cons, Node.opName, if_neg (hd rfl), this]
    | cons c cs =>
      have hc : c.node.opName ≠ "DiracDelta" := opName_node c hb.1
      have := hl (c :: cs) hb
      simp only [Written.nodes, List.cons_append] at this ⊢
      simp only [fromPymc, List.head?_cons, if_neg hc, this]

example : "DiscreteWeibullX" ∉ Catalog.existing := by decide +kernel

/-! ## Prior objects -/

/-- what the user writes with pymc-extras -/
inductive WrittenPrior
  | family (name : String) (kw : List (String × Option ℝ))
  | truncated (name : String) (kw : List (String × Option ℝ)) (lower upper : Option ℝ)
  | censored (name : String) (kw : List (String × Option ℝ)) (lower upper : Option ℝ)
  | hurdle (name : String) (kw : List (String × Option ℝ)) (psi : ℝ)
  | mixture (weights : List ℝ) (comps : List WrittenPrior)

/-- the bounds among the keyword arguments, where given -/
def boundKw (lower upper : Option ℝ) : List (String × Option ℝ) :=
  (lower.elim [] fun l => [("lower", some l)]) ++ (upper.elim [] fun u => [("upper", some u)])

mutual
/-- the Prior object: its class name and keyword arguments -/
def WrittenPrior.prior : WrittenPrior → Prior
  | .family name kw => .mk name kw none none none
  | .truncated name kw lower upper =>
    .mk "Truncated" (boundKw lower upper) (some (.mk name kw none none none)) none none
  | .censored name kw lower upper =>
    .mk "Censored" (boundKw lower upper) (some (.mk name kw none none none)) none none
  | .hurdle name kw psi => .mk ("Hurdle" ++ name) (kw ++ [("psi", some psi)]) none none none
  | .mixture weights comps =>
    .mk "Mixture" [] none (some (WrittenPrior.priors comps)) (some (weights.map some))

def WrittenPrior.priors : List WrittenPrior → List Prior
  | [] => []
  | c :: cs => c.prior :: WrittenPrior.priors cs
end

mutual
noncomputable def WrittenPrior.object : WrittenPrior → PDist
  | .family name kw => .family name (.named kw)
  | .truncated name kw lower upper =>
    .truncated (.family name (.named kw)) (lowerBound lower) (upperBound upper)
  | .censored name kw lower upper =>
    .censored (.family name (.named kw)) (lowerBound lower) (upperBound upper)
  | .hurdle name kw psi => .hurdle (.family name (.named kw)) (some psi)
  | .mixture weights comps => .mixture (WrittenPrior.objects comps) (weights.map some)

noncomputable def WrittenPrior.objects : List WrittenPrior → List PDist
  | [] => []
  | c :: cs => c.object :: WrittenPrior.objects cs
end

/-- the univariate families of PreliZ -/
def families : List String :=
  Catalog.allContinuous.map Catalog.Entry.name ++ Catalog.allDiscrete.map Catalog.Entry.name

mutual
def WrittenPrior.Valid : WrittenPrior → Prop
  | .family name _ => name ∈ families
  | .truncated name _ _ _ => name ∈ families
  | .censored name _ _ _ => name ∈ families
  | .hurdle name kw _ => name ∈ families ∧ ∀ kv ∈ kw, kv.1 ≠ "psi"
  | .mixture _ comps => WrittenPrior.Valids comps

def WrittenPrior.Valids : List WrittenPrior → Prop
  | [] => True
  | c :: cs => c.Valid ∧ WrittenPrior.Valids cs
end

private theorem families_exist {name : String} (h : name ∈ families) : name ∈ Catalog.existing := by
  simp only [families, Catalog.existing, List.mem_append] at h ⊢
  tauto

private theorem families_plain {name : String} (h : name ∈ families) :
    name ∉ Catalog.allModifiers ∧ ¬ (name = "Truncated" ∨ name = "Censored") ∧
      "Hurdle".toList.isPrefixOf name.toList = false ∧ name ≠ "Mixture" := by
  have : ∀ n ∈ families, n ∉ Catalog.allModifiers ∧ ¬ (n = "Truncated" ∨ n = "Censored") ∧
      "Hurdle".toList.isPrefixOf n.toList = false ∧ n ≠ "Mixture" := by decide +kernel
  exact this name h

private theorem getKw_bounds (lower upper : Option ℝ) :
    getKw (boundKw lower upper) "lower" = lower ∧ getKw (boundKw lower upper) "upper" = upper := by
  cases lower <;> cases upper <;> simp [getKw, boundKw, List.lookup]

private theorem priorBase_family (name : String) (kw : List (String × Option ℝ)) (h : name ∈ families) :
    priorBase (.mk name kw none none none) = .ok (.family name (.named kw)) := by
  simp [priorBase, lookup, families_exist h, (families_plain h).1]

mutual
/-- Prior objects are converted to the PreliZ object with the same structure, keyword arguments, bounds
and weights, with mixtures nested to any depth. -/
theorem from_prior_roundtrip : ∀ w : WrittenPrior, w.Valid → fromPrior w.prior = .ok w.object
  | .family name kw, h => by
    obtain ⟨-, h1, h2, h3⟩ := families_plain h
    simp only [WrittenPrior.prior, fromPrior, WrittenPrior.object, if_neg h1, h2, if_neg h3, lookup,
      if_pos (families_exist h)]
    simp
  | .truncated name kw lower upper, h => by
    have hb := getKw_bounds lower upper
    simp [WrittenPrior.prior, fromPrior, WrittenPrior.object, priorBase_family name kw h, hb.1, hb.2,
      bounds_spec]
  | .censored name kw lower upper, h => by
    have hb := getKw_bounds lower upper
    simp [WrittenPrior.prior, fromPrior, WrittenPrior.object, priorBase_family name kw h, hb.1, hb.2,
      bounds_spec]
  | .hurdle name kw psi, h => by
    obtain ⟨h, hk⟩ := h
    have hn : ¬ ("Hurdle" ++ name = "Truncated" ∨ "Hurdle" ++ name = "Censored") := by
      rintro (hh | hh) <;> · have := congrArg String.toList hh; simp at this
    have hl : (kw ++ [("psi", some psi)]).lookup "psi" = some (some psi) := by
      clear hn h
      induction kw with
      | nil => simp [List.lookup]
      | cons a l ih =>
        have ha : ("psi" == a.1) = false := by simpa using Ne.symm (hk a (by simp))
        simp [List.lookup, ha, ih (fun kv hkv => hk kv (by simp [hkv]))]
    have hf : (kw ++ [("psi", some psi)]).filter (fun kv => kv.1 ≠ "psi") = kw := by
      rw [List.filter_append, List.filter_eq_self.2 (by simpa using hk)]
      simp
    simp only [WrittenPrior.prior, fromPrior, WrittenPrior.object, if_neg hn, hl, hf]
    simp [lookup, families_exist h]
  | .mixture weights comps, h => by
    have := from_prior_roundtrip_list comps h
    simp [WrittenPrior.prior, fromPrior, WrittenPrior.object, this]

private theorem from_prior_roundtrip_list : ∀ l : List WrittenPrior, WrittenPrior.Valids l →
    fromPriors (WrittenPrior.priors l) = .ok (WrittenPrior.objects l)
  | [], _ => rfl
  | c :: cs, h => by
    simp only [WrittenPrior.priors, fromPriors, WrittenPrior.objects]
    rw [from_prior_roundtrip c h.1, from_prior_roundtrip_list cs h.2]
end

example : fromPrior (WrittenPrior.mixture [1/2, 1/2] [.hurdle "Gamma" [("alpha", some 2)] (3/4),
      .truncated "Normal" [("mu", some 0)] (some 1) none]).prior =
    .ok (.mixture [.hurdle (.family "Gamma" (.named [("alpha", some 2)])) (some (3/4)),
      .truncated (.family "Normal" (.named [("mu", some 0)])) ((1 : ℝ) : EReal) ⊤]
      [some (1/2), some (1/2)]) := by
  rw [from_prior_roundtrip]
  · rfl
  · refine ⟨⟨by decide +kernel, by simp⟩, ?_, trivial⟩
    show "Normal" ∈ families
    decide +kernel

/-- what is missing or unknown is reported: no base, no weights or components, no `psi`, an unknown
name; and a base that is itself compound is refused -/
theorem from_prior_errors (name : String) (kw : List (String × Option ℝ)) (lower upper : Option ℝ)
    (base : WrittenPrior) :
    fromPrior (.mk "Truncated" kw none none none) = .error .keyError ∧
    fromPrior (.mk "Censored" kw none none none) = .error .keyError ∧
    (∀ w, fromPrior (.mk "Mixture" kw none none w) = .error .keyError) ∧
    fromPrior (.mk "Mixture" kw none (some []) none) = .error .keyError ∧
    (name ∈ families → (∀ kv ∈ kw, kv.1 ≠ "psi") →
      fromPrior (.mk ("Hurdle" ++ name) kw none none none) = .error .keyError) ∧
    (name ∉ Catalog.existing → "Hurdle".toList.isPrefixOf name.toList = false →
      fromPrior (.mk name kw none none none) = .error .valueError) ∧
    (name ∉ Catalog.existing →
      fromPrior (.mk "Truncated" kw (some (.mk name [] none none none)) none none) =
        .error .attributeError) ∧
    ((∀ n k, base ≠ .family n k) → (∀ n k p, base ≠ .hurdle n k p) →
      fromPrior (.mk "Truncated" kw (some base.prior) none none) = .error .attributeError) := by
  have hm : ∀ n ∈ Catalog.allModifiers, n ∈ Catalog.existing := by decide +kernel
  refine ⟨by simp [fromPrior], by simp [fromPrior], fun w => by simp [fromPrior],
    by simp [fromPrior, fromPriors], fun h hk => ?_, fun h hp => ?_, fun h => ?_, fun h1 h2 => ?_⟩
  · have hn : ¬ ("Hurdle" ++ name = "Truncated" ∨ "Hurdle" ++ name = "Censored") := by
      rintro (hh | hh) <;> · have := congrArg String.toList hh; simp at this
    have hl : kw.lookup "psi" = none := by
      clear hn h
      induction kw with
      | nil => simp [List.lookup]
      | cons a l ih =>
        have ha : ("psi" == a.1) = false := by simpa using Ne.symm (hk a (by simp))
        simp [List.lookup, ha, ih (fun kv hkv => hk kv (by simp [hkv]))]
    simp only [fromPrior, if_neg hn, hl]
    simp [lookup, families_exist h]
  · have h1 : ¬ (name = "Truncated" ∨ name = "Censored") := by
      rintro (rfl | rfl) <;> exact h (by decide +kernel)
    have h2 : name ≠ "Mixture" := by
      rintro rfl; exact h (by decide +kernel)
    simp only [fromPrior, if_neg h1, hp, if_neg h2, lookup, if_neg h]
    simp
  · have : name ∉ Catalog.allModifiers := fun hh => h (hm _ hh)
    simp [fromPrior, priorBase, this, lookup, h]
  · cases base with
    | family n k => exact absurd rfl (h1 n k)
    | hurdle n k p => exact absurd rfl (h2 n k p)
    | _ => simp [fromPrior, WrittenPrior.prior, priorBase]

/-- a modifier given by its numbers alone is refused as a base: its class cannot be called without a distribution -/
theorem prior_modifier_base (name m : String) (hn : name = "Truncated" ∨ name = "Censored") (hm : m ∈ Catalog.allModifiers)
    (kw kb : List (String × Option ℝ)) :
    fromPrior (.mk name kw (some (.mk m kb none none none)) none none) = .error .typeError := by
  simp [fromPrior, priorBase, hn, hm]

end Verif.Props
