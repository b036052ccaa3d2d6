import Verif.Spec.ToPymc
import Verif.Props.FromPymc

/-!
# C72: conversion to PyMC and Bambi
-/

namespace Verif.Props
open Verif Verif.Ppl Verif.Spec.FromPymc

private theorem named_eq {names : List String} {kw : List (String × ℝ)} {l : List ℝ}
    (h : named names kw = some l) : kw = names.zip l := by
  unfold named at h
  split_ifs at h with h1
  simp only [Option.some.injEq] at h
  rw [← h1, ← h]
  induction kw generalizing names l with
  | nil => rfl
  | cons a k ih =>
    have := ih (names := k.map Prod.fst) (l := k.map Prod.snd) rfl rfl
    simp only [List.map_cons, List.zip_cons_cons]
    rw [← this]

private theorem asymmetric_perm (kappa mu b : ℝ) :
    [("mu", some mu), ("b", some b), ("kappa", some kappa)].Perm
      [("kappa", some kappa), ("mu", some mu), ("b", some b)] :=
  ((List.Perm.swap _ _ _).cons _).trans (List.Perm.swap _ _ _)

private theorem famOf_spec {name : String} {kw : List (String × ℝ)} {f : Fam}
    (h : famOf name kw = some f) :
    f.name = name ∧ ∃ args, f.object = .family name args ∧ SameArgs kw args := by
  unfold famOf at h
  by_cases h0 : name = "AsymmetricLaplace"
  · rw [if_pos h0] at h
    split at h
    · rename_i hn
      obtain rfl := Option.some.inj h
      subst h0
      rw [named_eq hn]
      exact ⟨rfl, _, rfl, asymmetric_perm _ _ _⟩
    · exact absurd h (by intro hh; cases hh)
  rw [if_neg h0] at h
  by_cases h1 : name = "Exponential"
  · rw [if_pos h1] at h
    split at h
    · rename_i hn
      obtain rfl := Option.some.inj h
      subst h1
      rw [named_eq hn]
      exact ⟨rfl, _, rfl, rfl⟩
    · exact absurd h (by intro hh; cases hh)
  rw [if_neg h1] at h
  by_cases h2 : name = "Gamma"
  · rw [if_pos h2] at h
    split at h
    · rename_i hn
      obtain rfl := Option.some.inj h
      subst h2
      rw [named_eq hn]
      exact ⟨rfl, _, rfl, List.Perm.refl _⟩
    · exact absurd h (by intro hh; cases hh)
  rw [if_neg h2] at h
  by_cases h3 : name = "Rice"
  · rw [if_pos h3] at h
    split at h
    · rename_i hn
      obtain rfl := Option.some.inj h
      subst h3
      rw [named_eq hn]
      exact ⟨rfl, _, rfl, List.Perm.refl _⟩
    · exact absurd h (by intro hh; cases hh)
  rw [if_neg h3] at h
  by_cases h4 : name = "SkewStudentT"
  · rw [if_pos h4] at h
    split at h
    · rename_i hn
      obtain rfl := Option.some.inj h
      subst h4
      rw [named_eq hn]
      exact ⟨rfl, _, rfl, List.Perm.refl _⟩
    · exact absurd h (by intro hh; cases hh)
  rw [if_neg h4] at h
  by_cases h5 : name = "Wald"
  · rw [if_pos h5] at h
    split at h
    · rename_i hn
      obtain rfl := Option.some.inj h
      subst h5
      rw [named_eq hn]
      exact ⟨rfl, _, rfl, List.Perm.refl _⟩
    · exact absurd h (by intro hh; cases hh)
  rw [if_neg h5] at h
  by_cases h6 : name = "BetaBinomial"
  · rw [if_pos h6] at h
    split at h
    · rename_i hn
      obtain rfl := Option.some.inj h
      subst h6
      rw [named_eq hn]
      exact ⟨rfl, _, rfl, List.Perm.refl _⟩
    · exact absurd h (by intro hh; cases hh)
  rw [if_neg h6] at h
  by_cases h7 : name = "NegativeBinomial"
  · rw [if_pos h7] at h
    split at h
    · rename_i hn
      obtain rfl := Option.some.inj h
      subst h7
      rw [named_eq hn]
      exact ⟨rfl, _, rfl, List.Perm.refl _⟩
    · exact absurd h (by intro hh; cases hh)
  rw [if_neg h7] at h
  by_cases h8 : name = "HyperGeometric"
  · rw [if_pos h8] at h
    split at h
    · rename_i hn
      obtain rfl := Option.some.inj h
      subst h8
      rw [named_eq hn]
      exact ⟨rfl, _, rfl, List.Perm.refl _⟩
    · exact absurd h (by intro hh; cases hh)
  rw [if_neg h8] at h
  by_cases h9 : name = "HalfNormal"
  · rw [if_pos h9] at h
    split at h
    · rename_i hn
      obtain rfl := Option.some.inj h
      subst h9
      rw [named_eq hn]
      exact ⟨rfl, _, rfl, rfl⟩
    · exact absurd h (by intro hh; cases hh)
  rw [if_neg h9] at h
  by_cases h10 : name = "LogitNormal"
  · rw [if_pos h10] at h
    split at h
    · rename_i hn
      obtain rfl := Option.some.inj h
      subst h10
      rw [named_eq hn]
      exact ⟨rfl, _, rfl, rfl⟩
    · exact absurd h (by intro hh; cases hh)
  rw [if_neg h10] at h
  obtain rfl := Option.some.inj h
  exact ⟨rfl, _, rfl, rfl⟩

private theorem inflatedOf_spec {name : String} {kw : List (String × ℝ)} {w : Written}
    (h : inflatedOf name kw = some w) :
    ∃ args, w.object = .family name args ∧ SameArgs kw args := by
  unfold inflatedOf at h
  by_cases h0 : name = "ZeroInflatedPoisson"
  · rw [if_pos h0] at h
    split at h
    · rename_i hn
      obtain rfl := Option.some.inj h
      subst h0
      rw [named_eq hn]
      exact ⟨_, rfl, rfl⟩
    · exact absurd h (by intro hh; cases hh)
  rw [if_neg h0] at h
  by_cases h1 : name = "ZeroInflatedBinomial"
  · rw [if_pos h1] at h
    split at h
    · rename_i hn
      obtain rfl := Option.some.inj h
      subst h1
      rw [named_eq hn]
      exact ⟨_, rfl, rfl⟩
    · exact absurd h (by intro hh; cases hh)
  rw [if_neg h1] at h
  by_cases h2 : name = "ZeroInflatedNegativeBinomial"
  · rw [if_pos h2] at h
    split at h
    · rename_i hn
      obtain rfl := Option.some.inj h
      subst h2
      rw [named_eq hn]
      exact ⟨_, rfl, rfl⟩
    · exact absurd h (by intro hh; cases hh)
  rw [if_neg h2] at h
  exact absurd h (by intro hh; cases hh)

/-- no univariate family starts with "Hurdle" -/
private theorem no_hurdle (f : Fam) (h : f.Valid) : "Hurdle".toList.isPrefixOf f.name.toList = false := by
  cases f with
  | other name params =>
    have : ∀ n ∈ Catalog.allContinuous.map Catalog.Entry.name ++
        Catalog.allDiscrete.map Catalog.Entry.name, "Hurdle".toList.isPrefixOf n.toList = false := by
      decide +kernel
    exact this name h.1
  | _ => simp only [Fam.name]; decide +kernel

private theorem written_family {pm : List String} {name : String} {kw : List (String × ℝ)} {f : Fam}
    (h : GoodFamily pm name kw f) : Call.written (.family name kw) = some (.family f) := by
  obtain ⟨-, h1, h2, h3⟩ := h
  have h4 := no_hurdle f h3
  rw [(famOf_spec h2).1] at h4
  rw [Call.written, h1, h4, h2]
  rfl

private theorem bounds_back {lower upper : EReal} (hl : lower ≠ ⊤) (hu : upper ≠ ⊥) :
    lowerBound (optBound lower) = lower ∧ upperBound (optBound upper) = upper := by
  constructor
  · by_cases h : lower = ⊥
    · simp [optBound, lowerBound, h]
    · simp [optBound, lowerBound, h, hl, EReal.coe_toReal hl h]
  · by_cases h : upper = ⊤
    · simp [optBound, upperBound, h]
    · simp [optBound, upperBound, h, hu, EReal.coe_toReal h hu]

private theorem getClass_ok {pm : List String} {name : String} (h : name ∈ pm) :
    getClass pm name = .ok name := if_pos h

/-- what is shown for every object -/
private def Reads (pm : List String) (d : ZDist) : Prop :=
  d.frozen = true ∧ ∃ c w, toPymc pm false d = .ok c ∧ Call.written c = some w ∧ w.Valid ∧
    Rebuilds d w.object

private theorem rebuilds_family {name : String} {kw : List (String × ℝ)} {f : Fam}
    (h : famOf name kw = some f) : Rebuilds (.family name (some kw)) f.object := by
  obtain ⟨hn, args, ho, ha⟩ := famOf_spec h
  rw [ho, Rebuilds]
  exact ⟨rfl, ha⟩

private theorem reads_family (pm : List String) (name : String) (kw : Option (List (String × ℝ)))
    (h : GoodOwn pm name kw) : Reads pm (.family name kw) := by
  cases kw with
  | none => exact h.elim
  | some kw =>
    refine ⟨rfl, .family name kw, ?_⟩
    rcases h with ⟨f, h⟩ | ⟨h1, h2, w, h3, h4⟩
    · refine ⟨.family f, by simp only [toPymc, getClass, if_pos h.1], written_family h, h.2.2.2, ?_⟩
      rw [Written.object]
      exact rebuilds_family h.2.2.1
    · obtain ⟨args, ho, ha⟩ := inflatedOf_spec h3
      refine ⟨w, by simp only [toPymc, getClass, if_pos h1], by rw [Call.written, if_pos h2, h3], h4, ?_⟩
      rw [ho, Rebuilds]
      exact ⟨rfl, ha⟩

private theorem reads_truncated (pm : List String) (base : ZDist) (lower upper : EReal)
    (h1 : "Truncated" ∈ pm) (h2 : GoodTruncated pm base) (h3 : lower ≠ ⊤) (h4 : upper ≠ ⊥) :
    Reads pm (.truncated base lower upper) := by
  unfold GoodTruncated at h2
  split at h2
  · rename_i name kw
    obtain ⟨f, h2, hp⟩ := h2
    have hc : toPymc pm false (.family name (some kw)) = .ok (.family name kw) := by
      simp only [toPymc, getClass, if_pos h2.1]
    refine ⟨rfl, .truncated (.family name kw) lower upper,
      .truncated f (optBound lower) (optBound upper), ?_, ?_, ⟨h2.2.2.2, hp⟩, ?_⟩
    · rw [toPymc]
      simp only [getClass, if_pos h1, hc]
      rfl
    · rw [Call.written, written_family h2]
    · rw [Written.object, Rebuilds]
      exact ⟨rebuilds_family h2.2.2.1, (bounds_back h3 h4).1.symm, (bounds_back h3 h4).2.symm⟩
  · exact h2.elim

private theorem reads_hurdle (pm : List String) (base : ZDist) (psi : ℝ) (h : GoodHurdle pm base) :
    Reads pm (.hurdle base psi) := by
  unfold GoodHurdle at h
  split at h
  · rename_i name kw
    obtain ⟨h1, f, h2, h3, hp⟩ := h
    refine ⟨rfl, .family ("Hurdle" ++ name) (kw ++ [("psi", psi)]), .hurdle f psi, ?_, ?_,
      ⟨h3, hp⟩, ?_⟩
    · rw [toPymc]
      simp only [ZDist.className, getClass_ok h1, hurdleParams]
    · have e1 : "ZeroInflated".toList.isPrefixOf ("Hurdle" ++ name).toList = false := by
        rw [String.toList_append]; rfl
      have e2 : "Hurdle".toList.isPrefixOf ("Hurdle" ++ name).toList = true := by simp
      have e3 : String.ofList (("Hurdle" ++ name).toList.drop 6) = name := by simp
      rw [Call.written, e1, if_neg (by simp), if_pos e2, hurdleOf, e3, List.dropLast_concat, h2,
        List.getLast?_concat]
      simp only [if_true]
    · rw [Written.object, Rebuilds]
      exact ⟨rebuilds_family h2, rfl⟩
  · exact h.elim

mutual
private theorem to_pymc_reads (pm : List String) : ∀ d : ZDist, Good pm d → Reads pm d
  | .family name kw, h => reads_family pm name kw h
  | .censored base lower upper, h => by
    obtain ⟨h1, h2, h3, h4⟩ := h
    obtain ⟨hf, c, w, g1, g2, g3, g4⟩ := to_pymc_reads pm base h2
    refine ⟨hf, .censored c lower upper, .censored w (optBound lower) (optBound upper), ?_, ?_, g3, ?_⟩
    · rw [toPymc]
      simp only [getClass, if_pos h1, g1, hf]
      rfl
    · rw [Call.written, g2]
      rfl
    · rw [Written.object, Rebuilds]
      exact ⟨g4, (bounds_back h3 h4).1.symm, (bounds_back h3 h4).2.symm⟩
  | .truncated base lower upper, h => reads_truncated pm base lower upper h.1 h.2.1 h.2.2.1 h.2.2.2
  | .hurdle base psi, h => reads_hurdle pm base psi h
  | .mixture comps weights, h => by
    obtain ⟨h1, h2, h3⟩ := h
    obtain ⟨cs, ws, g1, g2, g3, g4⟩ := to_pymc_reads_list pm comps h3
    refine ⟨rfl, .mixture weights cs, .mixture weights ws, ?_, ?_, ⟨?_, g3⟩, ?_⟩
    · rw [toPymc]
      simp only [getClass, if_pos h1, g1]
      rfl
    · rw [Call.written, g2]
      rfl
    · rintro rfl
      cases comps with
      | nil => exact h2 rfl
      | cons => simp [Written.objects, RebuildsAll] at g4
    · rw [Written.object, Rebuilds]
      exact ⟨g4, rfl⟩

private theorem to_pymc_reads_list (pm : List String) : ∀ l : List ZDist, GoodAll pm l →
    ∃ cs ws, toPymcs pm l = .ok cs ∧ Call.writtens cs = some ws ∧ Written.Valids ws ∧
      RebuildsAll l (Written.objects ws)
  | [], _ => ⟨[], [], rfl, rfl, trivial, trivial⟩
  | d :: ds, h => by
    obtain ⟨-, c, w, g1, g2, g3, g4⟩ := to_pymc_reads pm d h.1
    obtain ⟨cs, ws, k1, k2, k3, k4⟩ := to_pymc_reads_list pm ds h.2
    exact ⟨c :: cs, w :: ws, by rw [toPymcs, g1, k1], by rw [Call.writtens, g2, k2], ⟨g3, k3⟩,
      by rw [Written.objects, RebuildsAll]; exact ⟨g4, k4⟩⟩
end

/-- Outside a model, `to_pymc` followed by `from_pymc` gives back the distribution: same structure to any
depth, parameters, bounds and weights. -/
theorem to_pymc_roundtrip_partial (pm : List String) (d : ZDist) (h : Good pm d) :
    ∃ c w z, toPymc pm false d = .ok c ∧ Call.written c = some w ∧ fromPymc w.node = .ok z ∧
      Rebuilds d z := by
  obtain ⟨-, c, w, h1, h2, h3, h4⟩ := to_pymc_reads pm d h
  exact ⟨c, w, w.object, h1, h2, from_pymc_compound_partial w h3, h4⟩

/-- a mixture of a hurdle Gamma and a Normal censored at 2 -/
example : let pm := ["Normal", "HurdleGamma", "Censored", "Mixture"]
    let d := ZDist.mixture [.hurdle (.family "Gamma" (some [("alpha", 2), ("beta", 4)])) (3 / 4),
      .censored (.family "Normal" (some [("mu", 0), ("sigma", 1)])) ((2 : ℝ) : EReal) ⊤] [1 / 4, 3 / 4]
    toPymc pm false d = .ok (.mixture [1 / 4, 3 / 4]
      [.family "HurdleGamma" [("alpha", 2), ("beta", 4), ("psi", 3 / 4)],
       .censored (.family "Normal" [("mu", 0), ("sigma", 1)]) ((2 : ℝ) : EReal) ⊤]) ∧ Good pm d := by
  refine ⟨by simp [toPymc, toPymcs, getClass, ZDist.className, hurdleParams, ZDist.frozen], ?_⟩
  refine ⟨by simp, by simp, ⟨by simp, .gamma 2 4, rfl, ?_, ?_⟩, ?_, trivial⟩
  · show (0 : ℝ) < 4
    norm_num
  · intro s
    exact ⟨by simp, by simp⟩
  · refine ⟨by simp, Or.inl ⟨.other "Normal" [some 0, some 1], by simp, by decide +kernel, rfl, ?_⟩,
      EReal.coe_ne_top _, by simp⟩
    refine ⟨by decide +kernel, by decide +kernel⟩

/-! ## Inside a model -/

/-- the object is a family, or a modifier of families -/
def Flat : ZDist → Prop
  | .censored base _ _ => ∃ n kw, base = .family n kw
  | .truncated base _ _ => ∃ n kw, base = .family n kw
  | .mixture comps _ => ∀ c ∈ comps, ∃ n kw, c = .family n kw
  | _ => True

private theorem baseInModel_family (pm : List String) (name : String)
    (kw : Option (List (String × ℝ))) :
    baseInModel pm (.family name kw) = toPymc pm false (.family name kw) := by
  cases kw <;> simp only [baseInModel, toPymc, ZDist.className]

private theorem basesInModel_families (pm : List String) : ∀ l : List ZDist,
    (∀ c ∈ l, ∃ n kw, c = .family n kw) → basesInModel pm l = toPymcs pm l
  | [], _ => rfl
  | c :: cs, h => by
    obtain ⟨n, kw, rfl⟩ := h c (by simp)
    rw [basesInModel, toPymcs, baseInModel_family,
      basesInModel_families pm cs fun c hc => h c (by simp [hc])]

/-- Modifiers of families, not nested, are converted the same way inside a model as outside. -/
theorem to_pymc_in_model_partial (pm : List String) (d : ZDist) (h : Flat d) :
    toPymc pm true d = toPymc pm false d := by
  cases d with
  | family n kw => rw [toPymc, toPymc]
  | hurdle b psi => rw [toPymc, toPymc]
  | censored b l u =>
    obtain ⟨n, kw, rfl⟩ := h
    rw [toPymc.eq_def pm true, toPymc.eq_def pm false (ZDist.censored _ _ _)]
    simp only [baseInModel_family, if_true, Bool.false_eq_true, if_false]
  | truncated b l u =>
    obtain ⟨n, kw, rfl⟩ := h
    rw [toPymc.eq_def pm true, toPymc.eq_def pm false (ZDist.truncated _ _ _)]
    simp only [baseInModel_family, if_true, Bool.false_eq_true, if_false]
  | mixture cs w =>
    rw [toPymc, toPymc, basesInModel_families pm cs h]
    simp only [if_true, Bool.false_eq_true, if_false]

example : Flat (.truncated (.family "Normal" (some [("mu", 0), ("sigma", 1)])) 0 ⊤) := ⟨_, _, rfl⟩

private theorem baseInModel_compound (pm : List String) (d : ZDist) (h : ∀ n kw, d ≠ .family n kw) (c : Call) :
    baseInModel pm d ≠ .ok c := by
  unfold baseInModel
  cases getClass pm d.className with
  | error e => simp
  | ok name =>
    cases d with
    | family n kw => exact absurd rfl (h n kw)
    | _ => simp

/-- negation: inside a model every nested modifier fails, also those that are converted outside -/
theorem to_pymc_in_model_nested (pm : List String) (base : ZDist) (h : ∀ n kw, base ≠ .family n kw)
    (lower upper : EReal) (before after : List ZDist) (weights : List ℝ) (c : Call) :
    toPymc pm true (.censored base lower upper) ≠ .ok c ∧
    toPymc pm true (.truncated base lower upper) ≠ .ok c ∧
    toPymc pm true (.mixture (before ++ base :: after) weights) ≠ .ok c := by
  refine ⟨?_, ?_, ?_⟩
  · rw [toPymc]
    cases getClass pm "Censored" with
    | error e => simp
    | ok _ =>
      simp only [if_true]
      cases hb : baseInModel pm base with
      | error e => simp
      | ok c' => exact absurd hb (baseInModel_compound pm base h c')
  · rw [toPymc]
    cases getClass pm "Truncated" with
    | error e => simp
    | ok _ =>
      simp only [if_true]
      cases hb : baseInModel pm base with
      | error e => simp
      | ok c' => exact absurd hb (baseInModel_compound pm base h c')
  · have hl : ∀ cs, basesInModel pm (before ++ base :: after) ≠ .ok cs := by
      induction before with
      | nil =>
        intro cs
        rw [List.nil_append, basesInModel]
        cases hb : baseInModel pm base with
        | error e => simp
        | ok c' => exact absurd hb (baseInModel_compound pm base h c')
      | cons a l ih =>
        intro cs
        rw [List.cons_append, basesInModel]
        cases hb : baseInModel pm a with
        | error e => simp
        | ok c' =>
          cases hc : basesInModel pm (l ++ base :: after) with
          | error e => simp
          | ok cs' => exact absurd hc (ih cs')
    rw [toPymc]
    cases getClass pm "Mixture" with
    | error e => simp
    | ok _ =>
      simp only [if_true]
      cases hb : basesInModel pm (before ++ base :: after) with
      | error e => simp
      | ok c' => exact absurd hb (hl c')

/-- a truncated Normal, censored: converted outside a model, a TypeError inside -/
example : let pm := ["Normal", "Truncated", "Censored"]
    let d := ZDist.censored (.truncated (.family "Normal" (some [("mu", 0), ("sigma", 1)])) 0 ⊤) 1 ⊤
    toPymc pm false d = .ok (.censored (.truncated (.family "Normal" [("mu", 0), ("sigma", 1)]) 0 ⊤) 1 ⊤) ∧
    toPymc pm true d = .error .typeError := by
  constructor <;>
    simp [toPymc, baseInModel, getClass, ZDist.className, ZDist.frozen]

/-! ## What is refused -/

mutual
/-- a family somewhere has no parameters, or no class in PyMC -/
def Lacking (pm : List String) : ZDist → Prop
  | .family name kw => kw = none ∨ name ∉ pm
  | .censored base _ _ => Lacking pm base
  | .truncated base _ _ => Lacking pm base
  | .hurdle base _ => "Hurdle" ++ base.className ∉ pm ∨ base.frozen = false
  | .mixture comps _ => LackingAny pm comps

def LackingAny (pm : List String) : List ZDist → Prop
  | [] => False
  | d :: ds => Lacking pm d ∨ LackingAny pm ds
end

private theorem family_lacking (pm : List String) (name : String) (kw : Option (List (String × ℝ)))
    (m : Bool) (h : kw = none ∨ name ∉ pm) (c : Call) : toPymc pm m (.family name kw) ≠ .ok c := by
  rw [toPymc, getClass]
  by_cases hn : name ∈ pm
  · rcases h with rfl | h
    · simp [hn]
    · exact absurd hn h
  · simp [hn]

private theorem hurdle_lacking (pm : List String) (base : ZDist) (psi : ℝ) (m : Bool)
    (h : "Hurdle" ++ base.className ∉ pm ∨ base.frozen = false) (c : Call) :
    toPymc pm m (.hurdle base psi) ≠ .ok c := by
  rw [toPymc, getClass]
  by_cases hn : "Hurdle" ++ base.className ∈ pm
  · rcases h with h | h
    · exact absurd hn h
    · have : hurdleParams base psi = .error .typeError := by
        unfold hurdleParams
        split
        · simp [ZDist.frozen] at h
        · rfl
      rw [if_pos hn, this]
      simp
  · rw [if_neg hn]
    simp

private theorem baseInModel_lacking (pm : List String) (base : ZDist) (h : Lacking pm base) (c : Call) :
    baseInModel pm base ≠ .ok c := by
  by_cases hf : ∃ n kw, base = .family n kw
  · obtain ⟨n, kw, rfl⟩ := hf
    rw [baseInModel_family]
    rw [Lacking] at h
    exact family_lacking pm n kw false h c
  · push Not at hf
    exact baseInModel_compound pm base hf c

mutual
private theorem lacking_refused (pm : List String) : ∀ (d : ZDist) (m : Bool), Lacking pm d →
    ∀ c, toPymc pm m d ≠ .ok c
  | .family name kw, m, h => by
    rw [Lacking] at h
    exact family_lacking pm name kw m h
  | .hurdle base psi, m, h => by
    rw [Lacking] at h
    exact hurdle_lacking pm base psi m h
  | .censored base l u, m, h => by
    intro c
    rw [Lacking] at h
    rw [toPymc]
    cases getClass pm "Censored" with
    | error e => simp
    | ok _ =>
      have : ∀ c', (if m = true then baseInModel pm base else toPymc pm false base) ≠ .ok c' := by
        intro c'
        cases m with
        | true => exact baseInModel_lacking pm base h c'
        | false => exact lacking_refused pm base false h c'
      cases hb : (if m = true then baseInModel pm base else toPymc pm false base) with
      | error e => simp
      | ok c' => exact absurd hb (this c')
  | .truncated base l u, m, h => by
    intro c
    rw [Lacking] at h
    rw [toPymc]
    cases getClass pm "Truncated" with
    | error e => simp
    | ok _ =>
      have : ∀ c', (if m = true then baseInModel pm base else toPymc pm false base) ≠ .ok c' := by
        intro c'
        cases m with
        | true => exact baseInModel_lacking pm base h c'
        | false => exact lacking_refused pm base false h c'
      cases hb : (if m = true then baseInModel pm base else toPymc pm false base) with
      | error e => simp
      | ok c' => exact absurd hb (this c')
  | .mixture comps w, m, h => by
    intro c
    rw [Lacking] at h
    rw [toPymc]
    cases getClass pm "Mixture" with
    | error e => simp
    | ok _ =>
      have := lacking_refused_list pm comps h
      have : ∀ c', (if m = true then basesInModel pm comps else toPymcs pm comps) ≠ .ok c' := by
        intro c'
        cases m with
        | true => exact this.2 c'
        | false => exact this.1 c'
      cases hb : (if m = true then basesInModel pm comps else toPymcs pm comps) with
      | error e => simp
      | ok c' => exact absurd hb (this c')

private theorem lacking_refused_list (pm : List String) : ∀ l : List ZDist, LackingAny pm l →
    (∀ cs, toPymcs pm l ≠ .ok cs) ∧ ∀ cs, basesInModel pm l ≠ .ok cs
  | [], h => by
    rw [LackingAny] at h
    exact h.elim
  | d :: ds, h => by
    rw [LackingAny] at h
    constructor
    · intro cs
      rw [toPymcs]
      cases hd : toPymc pm false d with
      | error e => simp
      | ok c =>
        cases hs : toPymcs pm ds with
        | error e => simp
        | ok cs' =>
          rcases h with h | h
          · exact absurd hd (lacking_refused pm d false h c)
          · exact absurd hs ((lacking_refused_list pm ds h).1 cs')
    · intro cs
      rw [basesInModel]
      cases hd : baseInModel pm d with
      | error e => simp
      | ok c =>
        cases hs : basesInModel pm ds with
        | error e => simp
        | ok cs' =>
          rcases h with h | h
          · exact absurd hd (baseInModel_lacking pm d h c)
          · exact absurd hs ((lacking_refused_list pm ds h).2 cs')
end

/-- A distribution without parameters, or one PyMC has no class for, is refused wherever it is nested,
inside and outside a model. -/
theorem to_pymc_refuses (pm : List String) (d : ZDist) (inModel : Bool) (h : Lacking pm d) :
    ∃ e, toPymc pm inModel d = .error e := by
  cases hd : toPymc pm inModel d with
  | error e => exact ⟨e, rfl⟩
  | ok c => exact absurd hd (lacking_refused pm d inModel h c)

example : Lacking ["Normal", "Mixture"] (.mixture [.family "Normal" (some [("mu", 0), ("sigma", 1)]),
    .family "BetaScaled" (some [("alpha", 1)])] [1 / 2, 1 / 2]) := by
  simp [Lacking, LackingAny]

/-! ## to_bambi -/

private theorem lookup_map_num (kw : List (String × ℝ)) (key : String) :
    (kw.map fun nv => (nv.1, Val.num nv.2)).lookup key = (kw.lookup key).map fun x : ℝ => Val.num (x : EReal) := by
  induction kw with
  | nil => rfl
  | cons a l ih =>
    simp only [List.map_cons, List.lookup]
    cases key == a.1 <;> simp [ih]

private theorem lookup_of_mem {kw : List (String × ℝ)} (hn : (kw.map Prod.fst).Nodup) {key : String}
    {x : ℝ} (h : (key, x) ∈ kw) : kw.lookup key = some x := by
  induction kw with
  | nil => simp at h
  | cons a l ih =>
    simp only [List.map_cons, List.nodup_cons] at hn
    rcases List.mem_cons.1 h with rfl | h'
    · simp [List.lookup]
    · have : (key == a.1) = false := by
        rw [beq_eq_false_iff_ne]
        rintro rfl
        exact hn.1 (List.mem_map.2 ⟨_, h', rfl⟩)
      simp [List.lookup, this, ih hn.2 h']

/-- The Prior of a family has the name of the family and exactly its parameters. -/
theorem to_bambi_family_partial (name : String) (kw : List (String × ℝ)) (hn : (kw.map Prod.fst).Nodup) :
    ∃ args, toBambi (.family name (some kw)) = .ok (name, args) ∧
      (∀ key x, (key, x) ∈ kw → args key = some (.num x)) ∧
      ∀ key v, args key = some v → ∃ x : ℝ, v = .num x ∧ (key, x) ∈ kw := by
  refine ⟨_, rfl, ?_, ?_⟩
  · intro key x h
    have h1 : (kw.reverse.map Prod.fst).Nodup := by
      rw [List.map_reverse]
      exact List.nodup_reverse.2 hn
    beta_reduce
    rw [← List.map_reverse, lookup_map_num, lookup_of_mem h1 (List.mem_reverse.2 h)]
    rfl
  · intro key v h
    beta_reduce at h
    rw [← List.map_reverse, lookup_map_num, Option.map_eq_some_iff] at h
    obtain ⟨x, h1, h2⟩ := h
    refine ⟨x, h2.symm, ?_⟩
    rw [List.lookup_eq_some_iff] at h1
    obtain ⟨l1, l2, h1, -⟩ := h1
    exact List.mem_reverse.1 (by rw [h1]; simp)

example : ([("alpha", (2 : ℝ)), ("beta", 4)].map Prod.fst).Nodup := by simp

/-- negation: the Prior of a modified distribution does not say which family was modified, and that of a
mixture holds only the last of parameters with the same name -/
theorem to_bambi_ambiguous (mu sigma psi m1 s1 m2 s2 : ℝ) (l u : EReal) (w : List ℝ) :
    let normal := ZDist.family "Normal" (some [("mu", mu), ("sigma", sigma)])
    let logNormal := ZDist.family "LogNormal" (some [("mu", mu), ("sigma", sigma)])
    let other := fun m s : ℝ => ZDist.family "Normal" (some [("mu", m), ("sigma", s)])
    toBambi (.truncated normal l u) = toBambi (.truncated logNormal l u) ∧
    toBambi (.censored normal l u) = toBambi (.censored logNormal l u) ∧
    toBambi (.hurdle normal psi) = toBambi (.hurdle logNormal psi) ∧
    toBambi (.mixture [other m1 s1, normal] w) = toBambi (.mixture [other m2 s2, normal] w) := by
  refine ⟨rfl, rfl, rfl, ?_⟩
  simp only [toBambi, ZDist.params, ZDist.paramsList, Option.map_some, ZDist.className]
  congr 2
  funext key
  simp only [List.map_cons, List.map_nil, List.cons_append, List.nil_append, List.reverse_cons,
    List.reverse_nil, List.append_nil, List.lookup]
  by_cases h1 : key = "mu"
  · subst h1; simp
  · by_cases h2 : key = "sigma"
    · subst h2; simp
    · have e1 : (key == "mu") = false := by simpa using h1
      have e2 : (key == "sigma") = false := by simpa using h2
      simp [e1, e2]

private theorem lookup_append_reverse {l e : List (String × Val)} (key : String) :
    (l ++ e).reverse.lookup key = (e.reverse.lookup key).or (l.reverse.lookup key) := by
  rw [List.reverse_append, List.lookup_append]

/-- The Prior of a modified distribution has the modifier's name, its own arguments, and the
arguments of the Prior of the base that have other names. -/
theorem to_bambi_modifier (base : ZDist) (n : String) (args : String → Option Val) (l u : EReal) (psi : ℝ)
    (h : toBambi base = .ok (n, args)) :
    (∃ a, toBambi (.hurdle base psi) = .ok ("Hurdle", a) ∧ a "psi" = some (.num psi) ∧
      ∀ key, key ≠ "psi" → a key = args key) ∧
    (∃ a, toBambi (.truncated base l u) = .ok ("Truncated", a) ∧ a "lower" = some (.num l) ∧
      a "upper" = some (.num u) ∧ ∀ key, key ≠ "lower" → key ≠ "upper" → a key = args key) ∧
    ∃ a, toBambi (.censored base l u) = .ok ("Censored", a) ∧ a "lower" = some (.num l) ∧
      a "upper" = some (.num u) ∧ ∀ key, key ≠ "lower" → key ≠ "upper" → a key = args key := by
  unfold toBambi at h
  cases hp : base.params with
  | none => rw [hp] at h; cases h
  | some kv =>
    rw [hp] at h
    cases h
    refine ⟨⟨fun key => (kv ++ [("psi", Val.num psi)]).reverse.lookup key, ?_, ?_, fun key hk => ?_⟩,
      ⟨fun key => (kv ++ [("lower", Val.num l), ("upper", Val.num u)]).reverse.lookup key, ?_, ?_, ?_,
        fun key h1 h2 => ?_⟩,
      ⟨fun key => (kv ++ [("lower", Val.num l), ("upper", Val.num u)]).reverse.lookup key, ?_, ?_, ?_,
        fun key h1 h2 => ?_⟩⟩
    · simp [toBambi, ZDist.params, hp, ZDist.className]
    · simp [lookup_append_reverse, List.lookup]
    · have : (key == "psi") = false := by simpa using hk
      simp [lookup_append_reverse, List.lookup, this]
    · simp [toBambi, ZDist.params, hp, ZDist.className]
    · simp [lookup_append_reverse, List.lookup]
    · simp [lookup_append_reverse, List.lookup]
    · have e1 : (key == "lower") = false := by simpa using h1
      have e2 : (key == "upper") = false := by simpa using h2
      simp [lookup_append_reverse, List.lookup, e1, e2]
    · simp [toBambi, ZDist.params, hp, ZDist.className]
    · simp [lookup_append_reverse, List.lookup]
    · simp [lookup_append_reverse, List.lookup]
    · have e1 : (key == "lower") = false := by simpa using h1
      have e2 : (key == "upper") = false := by simpa using h2
      simp [lookup_append_reverse, List.lookup, e1, e2]

/-- `Hurdle(Gamma(2, 1), 0.8)` -/
example : ∃ n args, toBambi (.family "Gamma" (some [("alpha", 2), ("beta", 1)])) = .ok (n, args) :=
  ⟨_, _, rfl⟩

/-- not frozen: TypeError -/
theorem to_bambi_refuses (name : String) (l u : EReal) :
    toBambi (.family name none) = .error .typeError ∧
    toBambi (.truncated (.family name none) l u) = .error .typeError ∧
    toBambi (.censored (.family name none) l u) = .error .typeError := ⟨rfl, rfl, rfl⟩

end Verif.Props
