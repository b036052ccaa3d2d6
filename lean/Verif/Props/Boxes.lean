import Verif.Lemmas.Boxes

/-!
# C104: the intervals of the parameters
-/

namespace Verif.Props
open Verif Verif.Param Verif.Spec Verif.Support

/-- `params_support` has one interval for each of the parameters, in every history. -/
theorem params_support_length {f : Family} {s : SObj} (h : SAny f s) : s.box.length = s.obj.names.length := by
  obtain ⟨hn, N, hb⟩ := box_inv f s h
  rw [hb]
  generalize s.obj.names = names at hn
  cases f with
  | simple t =>
    cases t <;> simp only [ways, Way.plain, List.map_cons, List.map_nil, List.mem_singleton] at hn <;> subst hn <;> rfl
  | _ =>
    simp only [ways, Way.plain, List.map_cons, List.map_nil, List.mem_cons, List.not_mem_nil, or_false] at hn
    rcases hn with rfl | rfl | rfl <;> simp [boxOf]

private theorem zip_mem {α β : Type} {l : List α} {m : List β} {i : ℕ} {a : α} {b : β} (ha : l[i]? = some a) (hb : m[i]? = some b) :
    (a, b) ∈ l.zip m := by
  apply List.mem_of_getElem? (i := i)
  rw [List.getElem?_zip_eq_some]
  exact ⟨ha, hb⟩

/-- In every history, the interval of a parameter (apart from `Loose` ones) admits only documented values. -/
theorem params_support_sound {f : Family} {s : SObj} (h : SAny f s) (N : ℝ) {i : ℕ} {name : String} {lo hi : EReal}
    (hname : s.obj.names[i]? = some name) (hbox : s.box[i]? = some (lo, some hi)) (hl : ¬ Loose f name) (x : ℝ)
    (h1 : lo ≤ x) (h2 : x ≤ hi) : (docRange N f name).mem x := by
  obtain ⟨hn, M, hb⟩ := box_inv f s h
  rw [hb] at hbox
  rcases (box_pairs f _ hn M N _ (zip_mem hname hbox)).1 with hs | hs
  · exact hs hi rfl x h1 h2
  · exact absurd hs hl

/-- In every history, the interval of a parameter (apart from `Short` ones) is a pair of numbers that admits every documented
value at least the machine epsilon away from the ends of the documented range. -/
theorem params_support_full {f : Family} {s : SObj} (h : SAny f s) (N : ℝ) {i : ℕ} {name : String} {b : EReal × Option EReal}
    (hname : s.obj.names[i]? = some name) (hbox : s.box[i]? = some b) (hl : ¬ Short f name) :
    ∃ hi, b.2 = some hi ∧ ∀ x : ℝ, (docRange N f name).Inner x → b.1 ≤ x ∧ x ≤ hi := by
  obtain ⟨hn, M, hb⟩ := box_inv f s h
  rw [hb] at hbox
  rcases (box_pairs f _ hn M N _ (zip_mem hname hbox)).2 with hs | hs
  · exact hs
  · exact absurd hs hl

/-- the second parameter of a Gamma given by mean and standard deviation -/
example : ∃ s, SAny .gamma s ∧ s.obj.names[1]? = some "sigma" ∧ s.box[1]? = some (((eps : ℝ) : EReal), some (⊤ : EReal)) ∧ ¬ Loose .gamma "sigma" ∧
    ¬ Short .gamma "sigma" ∧ ((eps : ℝ) : EReal) ≤ ((2 : ℝ) : EReal) ∧ (docRange 0 .gamma "sigma").Inner 2 := by
  have he : eps ≤ 1 / 10 := by unfold eps; norm_num
  have hs : ∃ s, sConstruct .gamma (kwOf [("mu", 1)]) = .ok s ∧ s.obj.names[1]? = some "sigma" ∧ s.box[1]? = some (((eps : ℝ) : EReal), some (⊤ : EReal)) := by
    simp [sConstruct, construct, parametrize, gammaLikeParam, kwOf, List.lookup, anyNotNone, boxOf, pos]
  obtain ⟨s, h1, h2, h3⟩ := hs
  refine ⟨s, .build h1, h2, h3, by simp [Loose], by simp [Short], by rw [EReal.coe_le_coe_iff]; linarith, ⟨?_, ?_⟩, ?_, ?_⟩
  · simp only [docRange, above, Bool.false_eq_true, if_false]
    exact_mod_cast (by norm_num : (0 : ℝ) < 2)
  · simp [docRange, above]
  · simp only [docRange, above, zero_add]
    rw [EReal.coe_le_coe_iff]
    linarith
  · simp [docRange, above]

/-- The intervals of a HyperGeometric's `k` and `n` end at the `N` it is built with, and at `None` without it. -/
theorem hypergeometric_box (kw : Kw) :
    ∃ s, sConstruct (.simple .hyperGeometric) kw = .ok s ∧ s.obj.names = ["N", "k", "n"] ∧
      s.box = [(((eps : ℝ) : EReal), some (⊤ : EReal)), ((eps : ℝ), (kw "N").map fun x : ℝ => (x : EReal)), ((eps : ℝ), (kw "N").map fun x : ℝ => (x : EReal))] := by
  refine ⟨_, rfl, ?_, rfl⟩
  have := param_names (.simple .hyperGeometric) kw blank _ rfl
  simpa [ways, Way.plain] using this

/-! ### Where the code differs -/

private noncomputable def kw3 (a : String) (x : ℝ) (b : String) (y : ℝ) (c : String) (z : ℝ) : Kw := kwOf [(a, x), (b, y), (c, z)]

/-- A refit of a HyperGeometric to numbers that are not whole (optimisers produce these): the attributes are cut to whole
numbers, the support is not, and it is not the one of the distribution. -/
theorem hypergeometric_refit_support_wrong : ∃ s s', sConstruct (.simple .hyperGeometric) (kwOf [("N", 20), ("k", 10), ("n", 5)]) = .ok s ∧
    sUpdate (.simple .hyperGeometric) [20, 15 / 2, 11 / 2] s = .ok s' ∧ s'.obj.frozen = true ∧ Sensible (val s'.obj) (.simple .hyperGeometric) ∧
    val s'.obj "n" = 5 ∧ s'.support.2 = ((11 / 2 : ℝ) : EReal) ∧ ¬ Hull (docSet (val s'.obj) (.simple .hyperGeometric)) s'.support := by
  have f2 : ⌊(15 / 2 : ℝ)⌋ = 7 := by norm_num
  have f3 : ⌊(11 / 2 : ℝ)⌋ = 5 := by norm_num
  have key : ∀ o : Obj, val (simpleUpdate (simpleFam .hyperGeometric) [20, 15 / 2, 11 / 2] o) "N" = 20 ∧
      val (simpleUpdate (simpleFam .hyperGeometric) [20, 15 / 2, 11 / 2] o) "k" = 7 ∧
      val (simpleUpdate (simpleFam .hyperGeometric) [20, 15 / 2, 11 / 2] o) "n" = 5 := by
    intro o
    refine ⟨?_, ?_, ?_⟩ <;> simp [val, simpleUpdate, simpleFam, Obj.setAll, Obj.set, int64, f2, f3,
      show ¬ (15 / 2 : ℝ) < 0 by norm_num, show ¬ (11 / 2 : ℝ) < 0 by norm_num]
  have hsup : (updateSupport (fun k => ((["N", "k", "n"].zip [(20 : ℝ), 15 / 2, 11 / 2]).lookup k).getD 0) blank (0, 0)
      (.simple .hyperGeometric)).2 = ((11 / 2 : ℝ) : EReal) := by
    simp [updateSupport, List.lookup]
    norm_num
  refine ⟨_, _, rfl, rfl, ?_, ?_, (key _).2.2, hsup, ?_⟩
  · simp [simpleUpdate]
  · simp only [Sensible, (key _).1, (key _).2.1, (key _).2.2]
    norm_num
  · rintro ⟨-, h⟩
    have h2 : _ ≤ ((5 : ℝ) : EReal) := h.2 (by
      rintro _ ⟨x, ⟨k, rfl, -, hk⟩, rfl⟩
      simp only [(key _).2.1, (key _).2.2] at hk
      exact EReal.coe_le_coe_iff.2 (le_trans hk (min_le_right _ _)))
    have := EReal.coe_le_coe_iff.1 (hsup.symm.le.trans h2)
    norm_num at this

/-- After a refit the intervals of a HyperGeometric still end at the old `N`: its own `k` may lie outside. -/
theorem hypergeometric_box_stale : ∃ s s' b, sConstruct (.simple .hyperGeometric) (kwOf [("N", 20), ("k", 10), ("n", 5)]) = .ok s ∧
    sUpdate (.simple .hyperGeometric) [30, 25, 5] s = .ok s' ∧ s'.obj.names[1]? = some "k" ∧ val s'.obj "k" = 25 ∧ val s'.obj "N" = 30 ∧
    s'.box[1]? = some (b, some ((20 : ℝ) : EReal)) := by
  refine ⟨_, _, _, rfl, rfl, ?_, ?_, ?_, rfl⟩
  · have := (box_inv (.simple .hyperGeometric) _ (.refit (vals := [30, 25, 5]) (.build (kw := kwOf [("N", 20), ("k", 10), ("n", 5)]) rfl) rfl)).1
    simp only [ways, Way.plain, List.map_cons, List.map_nil, List.mem_singleton] at this
    rw [this]
    rfl
  · simp [val, simpleUpdate, simpleFam, Obj.setAll, Obj.set, int64]
  · simp [val, simpleUpdate, simpleFam, Obj.setAll, Obj.set, int64]

/-- Bernoulli's interval for `logit_p` is that of `p`: an object built with a negative `logit_p` has its own parameter outside
of its `params_support`; and `p = 1` is inside although the documentation excludes it. -/
theorem bernoulli_box_wrong : (∃ s lo hi, sConstruct .bernoulli (kwOf [("logit_p", -1)]) = .ok s ∧ s.obj.frozen = true ∧
      s.obj.names = ["logit_p"] ∧ s.box = [(lo, hi)] ∧ ¬ lo ≤ ((-1 : ℝ) : EReal)) ∧
    ∃ s lo hi, sConstruct .bernoulli (kwOf [("p", 1 / 2)]) = .ok s ∧ s.obj.names = ["p"] ∧ s.box = [(lo, some hi)] ∧
      lo ≤ ((1 : ℝ) : EReal) ∧ ((1 : ℝ) : EReal) ≤ hi ∧ ¬ (docRange 0 .bernoulli "p").mem 1 := by
  constructor
  · refine ⟨_, _, _, rfl, rfl, ?_, rfl, ?_⟩
    · simp [bernoulliUpdate]
    · rw [EReal.coe_le_coe_iff]
      have := eps_pos
      linarith
  · refine ⟨_, _, _, rfl, ?_, rfl, ?_, ?_, ?_⟩
    · simp [bernoulliUpdate]
    · rw [EReal.coe_le_coe_iff]
      unfold eps
      norm_num
    · simp
    · simp [docRange, openUnit, Range.mem]

/-- The intervals of `p` of the (zero-inflated) negative binomial have no upper end. -/
theorem negativebinomial_box_wrong : (∃ s lo, sConstruct .negativeBinomial (kwOf [("p", 1 / 2), ("n", 3)]) = .ok s ∧
      s.obj.names = ["p", "n"] ∧ s.box[0]? = some (lo, some ⊤)) ∧ (∃ s lo,
      sConstruct .ziNegativeBinomial (kwOf [("psi", 1 / 2), ("p", 1 / 2), ("n", 3)]) = .ok s ∧
      s.obj.names = ["psi", "p", "n"] ∧ s.box[1]? = some (lo, some ⊤)) ∧ ¬ (docRange 0 .negativeBinomial "p").mem 2 ∧
    ¬ (docRange 0 .ziNegativeBinomial "p").mem 2 := by
  have h1 : ¬ openUnit.mem 2 := by
    simp only [openUnit, Range.mem, Bool.false_eq_true, if_false, not_and, not_lt]
    intro _
    exact_mod_cast (by norm_num : (1 : ℝ) ≤ 2)
  refine ⟨?_, ?_, by simpa [docRange] using h1, by simpa [docRange] using h1⟩
  · have hp : nbFromNP 3 2⁻¹ = .ok (3, 3) := by simp [nbFromNP, pyDiv]; norm_num
    simp [sConstruct, construct, parametrize, nbParam, kwOf, List.lookup, anyNotNone, hp, nbUpdate, boxOf, pos]
  · have hp : nbFromNP 3 2⁻¹ = .ok (3, 3) := by simp [nbFromNP, pyDiv]; norm_num
    simp [sConstruct, construct, parametrize, zinbParam, kwOf, List.lookup, anyNotNone, hp, zinbUpdate, boxOf, pos]

/-- Beta's intervals admit pairs `mu`, `sigma` that no Beta distribution has; such an object is built with a negative `alpha`. -/
theorem beta_box_wrong : ∃ s l1 h1 l2 h2 a, sConstruct .beta (kwOf [("mu", 1 / 2), ("sigma", 9 / 10)]) = .ok s ∧
    s.obj.names = ["mu", "sigma"] ∧ s.box = [(l1, some h1), (l2, some h2)] ∧ l1 ≤ ((1 / 2 : ℝ) : EReal) ∧ ((1 / 2 : ℝ) : EReal) ≤ h1 ∧
    l2 ≤ ((9 / 10 : ℝ) : EReal) ∧ ((9 / 10 : ℝ) : EReal) ≤ h2 ∧ s.obj.attr "alpha" = some a ∧ a < 0 := by
  have hp : betaFromMuSigma 2⁻¹ (9 / 10) = .ok (-28 / 81, -28 / 81) := by simp [betaFromMuSigma, pyDiv]; norm_num
  have he : eps ≤ 1 / 10 := by unfold eps; norm_num
  have hs : ∃ s, sConstruct .beta (kwOf [("mu", 1 / 2), ("sigma", 9 / 10)]) = .ok s ∧ s.obj.names = ["mu", "sigma"] ∧
      s.box = [Support.unit, Support.unit] ∧ s.obj.attr "alpha" = some (-28 / 81) := by
    simp [sConstruct, construct, parametrize, betaParam, kwOf, List.lookup, anyNotNone, allNotNone, hp, betaUpdate, boxOf,
      Obj.setAll, Obj.set]
  obtain ⟨s, h1, h2, h3, h4⟩ := hs
  refine ⟨s, _, _, _, _, _, h1, h2, h3, ?_, ?_, ?_, ?_, h4, by norm_num⟩ <;> rw [EReal.coe_le_coe_iff] <;> linarith

/-- ExGaussian's interval for `nu` starts at 1e-4; smaller values are documented and accepted. -/
theorem exgaussian_box_short : ∃ s lo hi, sConstruct (.simple .exGaussian) (kwOf [("mu", 0), ("sigma", 1), ("nu", 5e-5)]) = .ok s ∧
    s.obj.frozen = true ∧ s.obj.names = ["mu", "sigma", "nu"] ∧ s.obj.attr "nu" = some 5e-5 ∧ s.box[2]? = some (lo, hi) ∧
    (docRange 0 (.simple .exGaussian) "nu").Inner 5e-5 ∧ ¬ lo ≤ ((5e-5 : ℝ) : EReal) := by
  refine ⟨_, _, _, rfl, rfl, ?_, ?_, rfl, ?_, ?_⟩
  · have := param_names (.simple .exGaussian) (kwOf [("mu", 0), ("sigma", 1), ("nu", 5e-5)]) blank _ rfl
    simpa [ways, Way.plain] using this
  · simp [simpleParam, simpleFam, allNotNone, kwOf, List.lookup, simpleUpdate, Obj.setAll, Obj.set]
  · refine ⟨⟨?_, ?_⟩, ?_, ?_⟩
    · simp only [docRange, above, Bool.false_eq_true, if_false]
      exact_mod_cast (by norm_num : (0 : ℝ) < 5e-5)
    · simp [docRange, above]
    · simp only [docRange, above, zero_add]
      rw [EReal.coe_le_coe_iff]
      unfold eps
      norm_num
    · simp [docRange, above]
  · rw [EReal.coe_le_coe_iff]
    norm_num

/-- Re-parametrising a frozen distribution with too few arguments leaves it frozen with a support that is not the one of its
parameters. -/
theorem incomplete_reparam_support : ∃ s s', sConstruct (.simple .uniform) (kwOf [("lower", 0), ("upper", 1)]) = .ok s ∧
    sParam (.simple .uniform) (kwOf [("lower", 1 / 2)]) s = .ok s' ∧ s'.obj.frozen = true ∧ s'.obj.params = some [some (1 / 2), none] ∧
    s'.support = (((1 / 2 : ℝ) : EReal), ⊤) := by
  refine ⟨_, _, rfl, rfl, ?_, ?_, ?_⟩
  · simp [simpleParam, simpleFam, allNotNone, kwOf, List.lookup, simpleUpdate]
  · simp [simpleParam, simpleFam, allNotNone, kwOf, List.lookup, simpleUpdate]
  · simp [updates, simpleFam, allNotNone, kwOf, List.lookup, paramSupport]

/-! ### What `info` shows -/

/-- `info` shows infinite ends as such, zero and ends of size at least 1e-10 exactly, and never with an error of 1e-10 or more. -/
theorem info_support_shown (isFloat : Bool) (v : EReal) :
    match formatValue isFloat v with
    | .inf => v = ⊤
    | .negInf => v = ⊥
    | .num y => ∃ x : ℝ, v = x ∧ |y - x| < 1e-10 ∧ (x = 0 ∨ 1e-10 ≤ |x| ∨ isFloat = false → y = x) := by
  induction v with
  | top => simp [formatValue]
  | bot => simp [formatValue]
  | coe x =>
    by_cases h3 : isFloat = true ∧ 0 < |x| ∧ |x| < 1e-10
    · have : formatValue isFloat (x : EReal) = .num 0 := by
        unfold formatValue
        rw [if_neg (EReal.coe_ne_top x), if_neg (EReal.coe_ne_bot x), EReal.toReal_coe, if_pos h3]
      rw [this]
      refine ⟨x, rfl, by simpa using h3.2.2, ?_⟩
      rintro (rfl | h | h)
      · rfl
      · exact absurd h3.2.2 (not_lt.2 h)
      · rw [h3.1] at h; cases h
    · have : formatValue isFloat (x : EReal) = .num x := by
        unfold formatValue
        rw [if_neg (EReal.coe_ne_top x), if_neg (EReal.coe_ne_bot x), EReal.toReal_coe, if_neg h3]
      rw [this]
      exact ⟨x, rfl, by simp; norm_num, fun _ => rfl⟩

/-- A Pareto distribution with `m = 1e-11` is shown with a support that starts at 0. -/
theorem info_support_inexact : ∃ s, sConstruct (.simple .pareto) (kwOf [("alpha", 2), ("m", 1e-11)]) = .ok s ∧
    s.support = (((1e-11 : ℝ) : EReal), ⊤) ∧ formatValue true s.support.1 = .num 0 := by
  have hs : (updateSupport (fun k => ((kwOf [("alpha", (2 : ℝ)), ("m", 1e-11)]) k).getD 0)
      (simpleParam (simpleFam .pareto) (kwOf [("alpha", 2), ("m", 1e-11)]) blank) (0, ⊤) (.simple .pareto)) = (((1e-11 : ℝ) : EReal), ⊤) := by
    simp [updateSupport, val, simpleParam, simpleFam, allNotNone, kwOf, List.lookup, simpleUpdate, Obj.setAll, Obj.set]
  refine ⟨_, rfl, ?_, ?_⟩
  · simp only [updates, simpleFam, allNotNone, kwOf, List.lookup]
    exact hs
  · have h1 : formatValue true ((1e-11 : ℝ) : EReal) = .num 0 := by
      unfold formatValue
      rw [if_neg (EReal.coe_ne_top _), if_neg (EReal.coe_ne_bot _), EReal.toReal_coe, if_pos ⟨rfl, by norm_num, by norm_num⟩]
    rw [← h1]
    exact congrArg (fun e : EReal × EReal => formatValue true e.1) hs

end Verif.Props
