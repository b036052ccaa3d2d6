import Verif.Props.RoundTrip

/-! Helper lemmas for C07: every frozen object is the report of canonical values. -/

set_option linter.unusedSimpArgs false

namespace Verif.Param
open Verif Verif.Spec Verif.Props

/-- what `params` must contain for given names and canonical values -/
noncomputable def report : Family → List String → List ℝ → List (Option ℝ)
  | .simple s, _, vals =>
    List.zipWith (fun k v => some ((simpleFam s).conv k v)) (simpleFam s).args vals
  | .asymmetricLaplace, names, [k, m, b] =>
    if names = ["q", "mu", "b"] then [some (asymLaplaceToQ k), some m, some b]
    else [some k, some m, some b]
  | .bernoulli, names, [p] => if names = ["logit_p"] then [logit p] else [some p]
  | .beta, names, [a, b] =>
    let ms := betaToMuSigma a b
    if names = ["mu", "sigma"] then [some ms.1, some ms.2]
    else if names = ["mu", "nu"] then [some ms.1, some (ms.1 * (1 - ms.1) / ms.2 ^ 2 - 1)]
    else [some a, some b]
  | .exponential, names, [l] => if names = ["scale"] then [some (1 / l)] else [some l]
  | .gamma, names, [a, b] =>
    let ms := gammaToMuSigma a b
    if names = ["mu", "sigma"] then [some ms.1, some ms.2] else [some a, some b]
  | .inverseGamma, names, [a, b] =>
    if names = ["mu", "sigma"] then [invGammaToMu a b, invGammaToSigma a b] else [some a, some b]
  | .negativeBinomial, names, [m, a] =>
    if names = ["p", "n"] then [some (nbToNP m a).2, some (nbToNP m a).1] else [some m, some a]
  | .rice, names, [n, s] =>
    if names = ["b", "sigma"] then [some (riceToB n s), some s] else [some n, some s]
  | .wald, names, [m, l] =>
    if names = ["mu", "phi"] then [some m, some (waldToPhi m l)]
    else if names = ["lam", "phi"] then [some l, some (waldToPhi m l)]
    else [some m, some l]
  | .ziNegativeBinomial, names, [p, m, a] =>
    if names = ["psi", "p", "n"] then [some p, some (nbToNP m a).2, some (nbToNP m a).1]
    else [some p, some m, some a]
  | _, _, vals => vals.map some

/-- `_update` writes the report of its arguments. -/
theorem update_report (f : Family) (vals : List ℝ) (o o' : Obj) (hn : o.names ∈ exactNames f)
    (hd : canonDom f o.names vals) (h : update f vals o = .ok o') :
    o'.names = o.names ∧ o'.params = some (report f o.names vals) ∧ o'.frozen = true := by
  cases f with
  | simple s =>
    simp only [update] at h
    split at h <;> simp at h
    subst h
    simp [simpleUpdate, report]
  | betaScaled =>
    match vals, hd with
    | [a, b, l, u], _ =>
      simp only [update, Except.ok.injEq] at h
      subst h
      simp [betaScaledUpdate, report, Obj.setAll, Obj.set]
  | _ =>
    simp only [exactNames, List.mem_cons, List.not_mem_nil, or_false] at hn
    revert hd h
    unfold canonDom update
    split <;> simp_all only [false_implies, reduceCtorEq, implies_true]
    all_goals
      rintro - ⟨⟩
      (try casesm* _ ∨ _) <;>
      simp [asymLaplaceUpdate, bernoulliUpdate, betaUpdate, exponentialUpdate, gammaUpdate,
        halfNormalUpdate, halfStudentTUpdate, invGammaUpdate, kumaraswamyUpdate, normalUpdate,
        nbUpdate, riceUpdate, skewNormalUpdate, skewStudentTUpdate, studentTUpdate, waldUpdate,
        zinbUpdate, report, *]


theorem int64_int64 (x : ℝ) : int64 (int64 x) = int64 x := by
  unfold int64
  by_cases h : 0 ≤ x
  · have : (0 : ℝ) ≤ (⌊x⌋ : ℝ) := by exact_mod_cast Int.floor_nonneg.mpr h
    simp [h, this]
  · by_cases h2 : (0 : ℝ) ≤ (⌈x⌉ : ℝ)
    · simp [h, h2]
    · simp [h, h2]

theorem conv_idem (s : Simple) (k : String) (x : ℝ) :
    (simpleFam s).conv k ((simpleFam s).conv k x) = (simpleFam s).conv k x := by
  cases s <;> simp only [simpleFam, id] <;> (try split) <;> simp [int64_int64]

theorem dictOf_map (names : List String) (cs : List (Option ℝ)) (hnd : names.Nodup)
    (hl : cs.length = names.length) : names.map (dictOf names cs) = cs := by
  induction names generalizing cs with
  | nil => cases cs <;> simp_all
  | cons n ns ih =>
    cases cs with
    | nil => simp at hl
    | cons c cs =>
      rw [List.nodup_cons] at hnd
      have h1 : dictOf (n :: ns) (c :: cs) n = c := by simp [dictOf]
      have h2 : ∀ k ∈ ns, dictOf (n :: ns) (c :: cs) k = dictOf ns cs k := by
        intro k hk
        have : k ≠ n := by rintro rfl; exact hnd.1 hk
        have hb : (k == n) = false := by simpa using this
        simp [dictOf, List.lookup, hb]
      simp only [List.map_cons, h1]
      rw [List.map_congr_left h2, ih cs hnd.2 (by simpa using hl)]

theorem args_nodup (s : Simple) : (simpleFam s).args.Nodup := by
  cases s <;> simp [simpleFam]

theorem rebuild_simple (t : SimpleFam) (vals : List ℝ) (o₂ : Obj) (hnd : t.args.Nodup)
    (hid : ∀ k x, t.conv k (t.conv k x) = t.conv k x) (hd : vals.length = t.args.length) :
    let cs := List.zipWith (fun k v => some (t.conv k v)) t.args vals
    let o' := simpleParam t (dictOf t.args cs) o₂
    o'.names = t.args ∧ o'.params = some cs ∧ o'.frozen = true := by
  intro cs o'
  have hlen : cs.length = t.args.length := by simp [cs, hd]
  have hmap : t.args.map (dictOf t.args cs) = cs := dictOf_map _ _ hnd hlen
  have hall : allNotNone (t.args.map (dictOf t.args cs)) = true := by
    rw [hmap]; unfold allNotNone
    rw [List.all_eq_true]
    intro x hx
    simp only [cs] at hx
    rw [List.mem_iff_getElem] at hx
    obtain ⟨i, hi, rfl⟩ := hx
    simp
  have hget : (t.args.map fun k => (dictOf t.args cs k).getD 0) =
      List.zipWith (fun k v => t.conv k v) t.args vals := by
    have : (t.args.map fun k => (dictOf t.args cs k).getD 0) =
        (t.args.map (dictOf t.args cs)).map (fun x => x.getD 0) := by simp
    rw [this, hmap]
    simp only [cs, List.map_zipWith, Option.getD_some]
  have hcs : List.zipWith (fun k v => some (t.conv k v)) t.args
      (List.zipWith (fun k v => t.conv k v) t.args vals) = cs := by
    apply List.ext_getElem
    · simp [cs, hd]
    · intro i h1 h2
      simp only [cs, List.getElem_zipWith]
      rw [hid]
  simp only [o', simpleParam, hall, if_true, hget, simpleUpdate, hcs]
  refine ⟨?_, trivial, trivial⟩
  cases t.preset <;> simp

theorem rebuild (f : Family) (names : List String) (vals : List ℝ) (o₂ : Obj)
    (hn : names ∈ exactNames f) (hd : canonDom f names vals) :
    ∃ o', parametrize f (dictOf names (report f names vals)) o₂ = .ok o' ∧ o'.names = names ∧
      o'.params = some (report f names vals) ∧ o'.frozen = true := by
  cases f with
  | simple s =>
    simp only [exactNames, List.mem_singleton] at hn
    subst hn
    exact ⟨_, rfl, rebuild_simple _ vals o₂ (args_nodup s) (conv_idem s) hd⟩
  | asymmetricLaplace =>
    match vals, hd with
    | [k, m, b], hd =>
      have hk : 0 < k := hd
      have hq := asym_laplace_round_trips.2 k hk
      simp only [exactNames, List.mem_cons, List.not_mem_nil, or_false] at hn
      rcases hn with rfl | rfl <;>
        simp [parametrize, asymLaplaceParam, report, dictOf, allNotNone, List.lookup, hq.2.2,
          asymLaplaceUpdate]
  | bernoulli =>
    match vals, hd with
    | [p], hd =>
      simp only [exactNames, List.mem_cons, List.not_mem_nil, or_false] at hn
      rcases hn with rfl | rfl
      · simp [parametrize, bernoulliParam, report, dictOf, allNotNone, List.lookup,
          bernoulliUpdate]
      · have hp := hd rfl
        obtain ⟨x, hx, hx'⟩ := expit_logit p hp.1 hp.2
        simp [parametrize, bernoulliParam, report, dictOf, allNotNone, List.lookup,
          bernoulliUpdate, hx, hx']
  | beta =>
    match vals, hd with
    | [a, b], hd =>
      have hb := beta_to_from a b hd.1 hd.2
      simp only at hb
      simp only [exactNames, List.mem_cons, List.not_mem_nil, or_false] at hn
      rcases hn with rfl | rfl | rfl
      · simp [parametrize, betaParam, report, dictOf, allNotNone, anyNotNone, List.lookup,
          betaUpdate]
      · simp [parametrize, betaParam, report, dictOf, allNotNone, anyNotNone, List.lookup,
          betaUpdate, hb.2.2.2.2.1]
      · simp [parametrize, betaParam, report, dictOf, allNotNone, anyNotNone, List.lookup,
          betaUpdate, hb.2.2.2.1, hb.2.2.2.2.2.1]
  | betaScaled =>
    match vals, hd with
    | [a, b, l, u], hd =>
      simp only [exactNames, List.mem_cons, List.not_mem_nil, or_false] at hn
      subst hn
      simp [parametrize, betaScaledParam, report, dictOf, List.lookup, betaScaledUpdate, Obj.setAll,
        Obj.set]
  | exponential =>
    match vals, hd with
    | [l], hd =>
      have hl : 0 < l := hd
      simp only [exactNames, List.mem_cons, List.not_mem_nil, or_false] at hn
      have := exponential_round_trips.2 l hl
      rw [one_div] at this
      rcases hn with rfl | rfl <;>
        simp [parametrize, exponentialParam, report, dictOf, allNotNone, List.lookup,
          exponentialUpdate, this]
  | gamma =>
    match vals, hd with
    | [a, b], hd =>
      have hb := gamma_to_from a b hd.1 hd.2
      simp only at hb
      simp only [exactNames, List.mem_cons, List.not_mem_nil, or_false] at hn
      rcases hn with rfl | rfl <;>
        simp [parametrize, gammaLikeParam, report, dictOf, allNotNone, anyNotNone, List.lookup,
          gammaUpdate, hb.2.2.2.2]
  | halfNormal =>
    match vals, hd with
    | [s], hd =>
      simp only [exactNames, List.mem_cons, List.not_mem_nil, or_false] at hn
      subst hn
      simp [parametrize, halfNormalParam, report, dictOf, allNotNone, List.lookup,
        halfNormalUpdate]
  | halfStudentT =>
    match vals, hd with
    | [n, s], hd =>
      simp only [exactNames, List.mem_cons, List.not_mem_nil, or_false] at hn
      subst hn
      simp [parametrize, halfStudentTParam, report, dictOf, allNotNone, List.lookup,
        halfStudentTUpdate]
  | inverseGamma =>
    match vals, hd with
    | [a, b], hd =>
      simp only [exactNames, List.mem_cons, List.not_mem_nil, or_false] at hn
      rcases hn with rfl | rfl
      · simp [parametrize, gammaLikeParam, report, dictOf, allNotNone, anyNotNone, List.lookup,
          invGammaUpdate]
      · obtain ⟨m, s, hm, hs, -, -, -, -, hr⟩ := invgamma_to_from a b (hd.2.2 rfl) hd.2.1
        simp [parametrize, gammaLikeParam, report, dictOf, allNotNone, anyNotNone, List.lookup,
          invGammaUpdate, hm, hs, hr]
  | kumaraswamy =>
    match vals, hd with
    | [a, b], hd =>
      have ha : a ≠ 0 := hd.1.ne'
      simp only [exactNames, List.mem_cons, List.not_mem_nil, or_false] at hn
      subst hn
      simp [parametrize, kumaraswamyParam, report, dictOf, List.lookup, kumaraswamyUpdate, pyAnd, ha]
  | logitNormal =>
    match vals, hd with
    | [n, s], hd =>
      simp only [exactNames, List.mem_cons, List.not_mem_nil, or_false] at hn
      subst hn
      simp [parametrize, normalParam, report, dictOf, allNotNone, List.lookup, normalUpdate]
  | normal =>
    match vals, hd with
    | [n, s], hd =>
      simp only [exactNames, List.mem_cons, List.not_mem_nil, or_false] at hn
      subst hn
      simp [parametrize, normalParam, report, dictOf, allNotNone, List.lookup, normalUpdate]
  | negativeBinomial =>
    match vals, hd with
    | [m, a], hd =>
      have hb := nb_to_from m a hd.1 hd.2
      simp only at hb
      simp only [exactNames, List.mem_cons, List.not_mem_nil, or_false] at hn
      rcases hn with rfl | rfl <;>
        simp [parametrize, nbParam, report, dictOf, allNotNone, anyNotNone, List.lookup,
          nbUpdate, hb.2.2.2]
  | rice =>
    match vals, hd with
    | [n, s], hd =>
      have hs : 0 < s := hd
      have hb := (rice_round_trips n 0 s hs).2
      simp only [exactNames, List.mem_cons, List.not_mem_nil, or_false] at hn
      rcases hn with rfl | rfl <;>
        simp [parametrize, riceParam, report, dictOf, allNotNone, List.lookup, riceUpdate, hb]
  | skewNormal =>
    match vals, hd with
    | [m, s, a], hd =>
      simp only [exactNames, List.mem_cons, List.not_mem_nil, or_false] at hn
      subst hn
      simp [parametrize, skewNormalParam, report, dictOf, allNotNone, List.lookup, skewNormalUpdate]
  | skewStudentT =>
    match vals, hd with
    | [m, s, a, b], hd =>
      simp only [exactNames, List.mem_cons, List.not_mem_nil, or_false] at hn
      subst hn
      simp [parametrize, skewStudentTParam, report, dictOf, allNotNone, List.lookup,
        skewStudentTUpdate]
  | studentT =>
    match vals, hd with
    | [n, m, s], hd =>
      simp only [exactNames, List.mem_cons, List.not_mem_nil, or_false] at hn
      subst hn
      simp [parametrize, studentTParam, report, dictOf, allNotNone, List.lookup, studentTUpdate]
  | wald =>
    match vals, hd with
    | [m, l], hd =>
      have hw := wald_round_trips m l 1 hd.1 hd.2 one_pos
      have hp : 0 < waldToPhi m l := div_pos hd.2 hd.1
      have hm : m ≠ 0 := hd.1.ne'
      have hl : l ≠ 0 := hd.2.ne'
      simp only [exactNames, List.mem_cons, List.not_mem_nil, or_false] at hn
      rcases hn with rfl | rfl | rfl <;>
        simp [parametrize, waldParam, report, dictOf, allNotNone, List.lookup, waldUpdate, pyAnd, hm,
          hl, hw.2.1, hw.2.2.2]
  | ziNegativeBinomial =>
    match vals, hd with
    | [p, m, a], hd =>
      have hb := nb_to_from m a hd.1 hd.2
      simp only at hb
      simp only [exactNames, List.mem_cons, List.not_mem_nil, or_false] at hn
      rcases hn with rfl | rfl <;>
        simp [parametrize, zinbParam, report, dictOf, allNotNone, anyNotNone, List.lookup,
          zinbUpdate, hb.2.2.2]

end Verif.Param
