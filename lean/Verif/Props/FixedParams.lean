import Verif.Model.Optim
import Verif.Spec.Optim
import Verif.Spec.Rebuild
import Verif.Props.Reported

set_option linter.unusedSimpArgs false
set_option linter.unusedVariables false

/-!
# C26: fixed parameters stay fixed during optimisation
-/

namespace Verif.Props
open Verif Verif.Param Verif.Optim Verif.Spec

theorem getFixedParams_eq (o : Obj) :
    getFixedParams o = ((o.names.zipIdx.filter fun ni => (o.attr ni.1).isNone).map Prod.snd,
      o.names.filterMap o.attr) := by
  have main : ∀ (l : List String) (i : ℕ) (acc : List ℕ × List ℝ),
      (l.zipIdx i).foldl (splitStep o.attr) acc =
      (acc.1 ++ ((l.zipIdx i).filter fun ni => (o.attr ni.1).isNone).map Prod.snd,
        acc.2 ++ l.filterMap o.attr) := by
    intro l
    induction l with
    | nil => simp
    | cons a l ih =>
      intro i acc
      rw [List.zipIdx_cons, List.foldl_cons, ih]
      cases h : o.attr a <;> simp [h, splitStep]
  unfold getFixedParams
  rw [main]
  simp

theorem getParamsFrom_filled (user : String → Option ℝ) (N : List ℕ) (l : List String) (i : ℕ)
    (cand : List ℝ)
    (hN : ∀ ni ∈ l.zipIdx i, N.contains ni.2 = (user ni.1).isNone)
    (hc : cand.length = (l.filter fun n => (user n).isNone).length) :
    ∃ kvs, getParamsFrom l i N cand (l.filterMap user) = .ok kvs ∧ Filled l user cand kvs := by
  induction l generalizing i cand with
  | nil =>
    simp at hc
    subst hc
    exact ⟨[], rfl, rfl, by simp, by simp⟩
  | cons a l ih =>
    have ha := hN (a, i) (by simp [List.zipIdx_cons])
    have hN' : ∀ ni ∈ l.zipIdx (i + 1), N.contains ni.2 = (user ni.1).isNone :=
      fun ni h => hN ni (by rw [List.zipIdx_cons]; exact List.mem_cons_of_mem _ h)
    unfold getParamsFrom
    cases h : user a with
    | none =>
      simp only [h, Option.isNone_none] at ha
      rw [if_pos ha]
      simp only [List.filter_cons, h, Option.isNone_none, if_true, List.length_cons] at hc
      cases cand with
      | nil => simp at hc
      | cons c cand =>
        obtain ⟨kvs, h1, h2, h3, h4⟩ := ih (i + 1) cand hN' (by simpa using hc)
        refine ⟨(a, c) :: kvs, by simp [List.filterMap_cons, h, h1, Except.map], by simp [h2], ?_, ?_⟩
        · intro kv hkv v hv
          rcases List.mem_cons.mp hkv with rfl | hkv
          · simp [h] at hv
          · exact h3 kv hkv v hv
        · simp [List.filter_cons, h, h4]
    | some v =>
      simp only [h, Option.isNone_some] at ha
      rw [if_neg (by simpa using ha)]
      simp only [List.filter_cons, h, Option.isNone_some, Bool.false_eq_true, if_false] at hc
      obtain ⟨kvs, h1, h2, h3, h4⟩ := ih (i + 1) cand hN' hc
      refine ⟨(a, v) :: kvs, by simp [List.filterMap_cons, h, h1, Except.map], by simp [h2], ?_, ?_⟩
      · intro kv hkv w hw
        rcases List.mem_cons.mp hkv with rfl | hkv
        · simp [h] at hw; exact hw
        · exact h3 kv hkv w hw
      · simp [List.filter_cons, h, h4]

/-- C26: whatever point the optimiser proposes, the reassembled arguments keep every parameter the
user gave and put the candidate values in the free places, in order. -/
theorem candidate_filled (o : Obj) (cand : List ℝ)
    (hc : cand.length = (getFixedParams o).1.length) :
    ∃ kvs, getParams o.names cand (getFixedParams o).1 (getFixedParams o).2 = .ok kvs ∧
      Filled o.names o.attr cand kvs := by
  rw [getFixedParams_eq] at hc ⊢
  apply getParamsFrom_filled o.attr _ o.names 0 cand
  · intro ni hni
    rw [Bool.eq_iff_iff, List.contains_iff_mem, List.mem_map]
    constructor
    · rintro ⟨mi, hmi, he⟩
      obtain ⟨hm1, hm2⟩ := List.mem_filter.mp hmi
      have a := List.mem_zipIdx_iff_getElem?.mp hni
      have b := List.mem_zipIdx_iff_getElem?.mp hm1
      rw [he, a] at b
      rw [Option.some.inj b]
      exact hm2
    · intro h
      exact ⟨ni, List.mem_filter.mpr ⟨hni, h⟩, rfl⟩
  · simp only [List.length_map] at hc
    rw [hc]
    have : ∀ (l : List String) (i : ℕ), ((l.zipIdx i).filter fun ni => (o.attr ni.1).isNone).length =
        (l.filter fun n => (o.attr n).isNone).length := by
      intro l
      induction l with
      | nil => simp
      | cons a l ih =>
        intro i
        rw [List.zipIdx_cons, List.filter_cons, List.filter_cons]
        by_cases h : (o.attr a).isNone = true <;> simp [h, ih]
    exact this _ _

/-- C26: a vector that is too short raises IndexError instead of shifting values. -/
example : getParams ["mu", "sigma"] [] [0] [1] = .error .indexError := rfl

example : getParams ["nu", "mu", "sigma"] [7, 8] [1, 2] [4] =
    .ok [("nu", 4), ("mu", 7), ("sigma", 8)] := rfl

/-! ### The same at the level of the distribution object -/

theorem length_eq_four {α : Type} {l : List α} (h : l.length = 0 + 1 + 1 + 1 + 1) :
    ∃ a b c d, l = [a, b, c, d] := by
  match l, h with
  | [a, b, c, d], _ => exact ⟨a, b, c, d, rfl⟩

theorem complete_reported_simple (s : Simple) (vals : List ℝ) (o : Obj)
    (hl : vals.length = (simpleFam s).args.length)
    (hw : ∀ kv ∈ (simpleFam s).args.zip vals, WholeParam (.simple s) kv.1 → ∃ n : ℤ, kv.2 = n) :
    Gives (parametrize (.simple s) (kwCall ((simpleFam s).args.zip vals)) o) fun o' =>
      o'.names = (simpleFam s).args ∧ o'.params = some (vals.map some) := by
  have hi : ∀ n : ℤ, int64 (n : ℝ) = n := by intro n; simp [int64]
  cases s <;> simp only [simpleFam, List.length_cons, List.length_nil] at hl hw ⊢
  all_goals
    first
    | (obtain ⟨a, rfl⟩ := List.length_eq_one_iff.mp hl)
    | (obtain ⟨a, b, rfl⟩ := List.length_eq_two.mp hl)
    | (obtain ⟨a, b, c, rfl⟩ := List.length_eq_three.mp hl)
    | (obtain ⟨a, b, c, d, rfl⟩ := length_eq_four hl)
  all_goals
    simp [parametrize, simpleParam, simpleFam, kwCall, List.lookup, allNotNone, simpleUpdate,
      Obj.setAll, Obj.set, WholeParam] at hw ⊢
  all_goals
    first
    | (obtain ⟨n, rfl⟩ := hw; simp [hi])
    | (obtain ⟨⟨n, rfl⟩, m, rfl⟩ := hw; simp [hi])
    | (obtain ⟨⟨n, rfl⟩, ⟨m, rfl⟩, k, rfl⟩ := hw; simp [hi])

/-- a full set of arguments of one documented parametrisation is reported back verbatim, whatever
state the object was in -/
theorem complete_reported (f : Family) (names : List String) (hn : names ∈ exactNames f)
    (vals : List ℝ) (o : Obj) (hl : vals.length = names.length)
    (hd : InDom f (kwCall (names.zip vals)))
    (hw : ∀ kv ∈ names.zip vals, WholeParam f kv.1 → ∃ n : ℤ, kv.2 = n) :
    Gives (parametrize f (kwCall (names.zip vals)) o) fun o' =>
      o'.names = names ∧ o'.params = some (vals.map some) := by
  have ofReports : ∀ (r : Except Err Obj) (call attrs : List (String × ℝ)),
      (Gives r fun o' => Reports o' call attrs) →
      Gives r fun o' => o'.names = call.map Prod.fst ∧ o'.params = some (call.map fun kv => some kv.2) := by
    rintro r call attrs ⟨o', h, h1, h2, h3, -⟩
    exact ⟨o', h, h2, h3⟩
  cases f with
  | simple s =>
    simp only [exactNames, List.mem_singleton] at hn
    subst hn
    exact complete_reported_simple s vals o hl hw
  | beta =>
    simp only [exactNames, List.mem_cons, List.not_mem_nil, or_false] at hn
    rcases hn with rfl | rfl | rfl <;> obtain ⟨a, b, rfl⟩ := List.length_eq_two.mp hl
    · obtain ⟨s, -, -, h, -⟩ := beta_object_alpha_beta a b o
        (hd.1 "alpha" a rfl) (hd.1 "beta" b rfl)
      exact ofReports _ _ _ h
    · have h1 := hd.1 "mu" a rfl
      obtain ⟨_, _, -, -, -, -, h⟩ := beta_object_mu_sigma a b o h1.1 h1.2 (hd.1 "sigma" b rfl)
        (hd.2.2 rfl a b rfl rfl)
      exact ofReports _ _ _ h
    · have h1 := hd.1 "mu" a rfl
      obtain ⟨_, _, _, -, -, -, -, -, -, h⟩ := beta_object_mu_nu a b o h1.1 h1.2 (hd.1 "nu" b rfl)
      exact ofReports _ _ _ h
  | gamma =>
    simp only [exactNames, List.mem_cons, List.not_mem_nil, or_false] at hn
    rcases hn with rfl | rfl <;> obtain ⟨a, b, rfl⟩ := List.length_eq_two.mp hl
    · obtain ⟨s, -, -, h, -⟩ := gamma_object_alpha_beta a b o
        (hd.1 "alpha" a rfl) (hd.1 "beta" b rfl)
      exact ofReports _ _ _ h
    · obtain ⟨_, _, -, -, -, -, h⟩ := gamma_object_mu_sigma a b o (hd.1 "mu" a rfl)
        (hd.1 "sigma" b rfl)
      exact ofReports _ _ _ h
  | inverseGamma =>
    simp only [exactNames, List.mem_cons, List.not_mem_nil, or_false] at hn
    rcases hn with rfl | rfl <;> obtain ⟨a, b, rfl⟩ := List.length_eq_two.mp hl
    · simp [parametrize, gammaLikeParam, kwCall, List.lookup, allNotNone, anyNotNone, invGammaUpdate,
        Obj.setAll, Obj.set]
    · obtain ⟨_, _, -, -, -, -, h⟩ := invgamma_object_mu_sigma a b o (hd.1 "mu" a rfl)
        (hd.1 "sigma" b rfl)
      exact ofReports _ _ _ h
  | negativeBinomial =>
    simp only [exactNames, List.mem_cons, List.not_mem_nil, or_false] at hn
    rcases hn with rfl | rfl <;> obtain ⟨a, b, rfl⟩ := List.length_eq_two.mp hl
    · obtain ⟨_, -, -, -, h, -⟩ := nb_object_mu_alpha a b o (hd.1 "mu" a rfl) (hd.1 "alpha" b rfl)
      exact ofReports _ _ _ h
    · have h1 := hd.1 "p" a rfl
      obtain ⟨_, _, -, -, -, -, h, -⟩ := nb_object_p_n a b o (hd.1 "n" b rfl) h1.1 h1.2
      exact ofReports _ _ _ h
  | ziNegativeBinomial =>
    simp only [exactNames, List.mem_cons, List.not_mem_nil, or_false] at hn
    rcases hn with rfl | rfl <;> obtain ⟨a, b, c, rfl⟩ := List.length_eq_three.mp hl
    · simp [parametrize, zinbParam, kwCall, List.lookup, allNotNone, anyNotNone, zinbUpdate,
        Obj.setAll, Obj.set]
    · have h1 := hd.1 "p" b rfl
      obtain ⟨_, _, -, -, -, -, -, h⟩ := nb_object_p_n b c o (hd.1 "n" c rfl) h1.1 h1.2
      exact ofReports _ _ _ (h a)
  | wald =>
    simp only [exactNames, List.mem_cons, List.not_mem_nil, or_false] at hn
    rcases hn with rfl | rfl | rfl <;> obtain ⟨a, b, rfl⟩ := List.length_eq_two.mp hl
    · exact ofReports _ _ _ (wald_objects a b _ o (hd.1 "mu" a rfl) (hd.1 "lam" b rfl) rfl).1
    · have ha : 0 < a := hd.1 "mu" a rfl
      have hb : 0 < b := hd.1 "phi" b rfl
      exact ofReports _ _ _ (wald_objects a (a * b) b o ha (mul_pos ha hb) (by field_simp)).2.1
    · have ha : 0 < a := hd.1 "lam" a rfl
      have hb : 0 < b := hd.1 "phi" b rfl
      exact ofReports _ _ _ (wald_objects (a / b) a b o (div_pos ha hb) ha (by field_simp)).2.2
  | rice =>
    simp only [exactNames, List.mem_cons, List.not_mem_nil, or_false] at hn
    rcases hn with rfl | rfl <;> obtain ⟨a, b, rfl⟩ := List.length_eq_two.mp hl
    · exact ofReports _ _ _ (rice_objects a _ b o (hd.1 "sigma" b rfl) rfl).1
    · have hb : 0 < b := hd.1 "sigma" b rfl
      exact ofReports _ _ _ (rice_objects (a * b) a b o hb (by field_simp)).2
  | asymmetricLaplace =>
    simp only [exactNames, List.mem_cons, List.not_mem_nil, or_false] at hn
    rcases hn with rfl | rfl <;> obtain ⟨a, b, c, rfl⟩ := List.length_eq_three.mp hl
    · exact ofReports _ _ _ (asym_laplace_objects a _ b c o (hd.1 "kappa" a rfl) rfl).2.2.1
    · have h1 := hd.1 "q" a rfl
      obtain ⟨k, hk, hq⟩ := asym_laplace_every_q a h1.1 h1.2
      exact ofReports _ _ _ (asym_laplace_objects k a b c o hk hq).2.2.2
  | exponential =>
    simp only [exactNames, List.mem_cons, List.not_mem_nil, or_false] at hn
    rcases hn with rfl | rfl <;> obtain ⟨a, rfl⟩ := List.length_eq_one_iff.mp hl
    · exact ofReports _ _ _ (exponential_objects a _ o (hd.1 "lam" a rfl) rfl).1
    · have ha : 0 < a := hd.1 "scale" a rfl
      exact ofReports _ _ _ (exponential_objects (1 / a) a o (by positivity) (by field_simp)).2
  | bernoulli =>
    simp only [exactNames, List.mem_cons, List.not_mem_nil, or_false] at hn
    rcases hn with rfl | rfl <;> obtain ⟨a, rfl⟩ := List.length_eq_one_iff.mp hl
    · simp [parametrize, bernoulliParam, kwCall, List.lookup, allNotNone, anyNotNone, bernoulliUpdate,
        Obj.setAll, Obj.set]
    · obtain ⟨_, -, -, -, h⟩ := bernoulli_objects a o
      first | exact ofReports _ _ _ h | exact ofReports _ _ _ h.1
  | betaScaled =>
    simp only [exactNames, List.mem_cons, List.not_mem_nil, or_false] at hn
    subst hn
    obtain ⟨a, b, c, d, rfl⟩ := length_eq_four hl
    simp [parametrize, betaScaledParam, kwCall, List.lookup, betaScaledUpdate, Obj.setAll, Obj.set]
  | halfNormal =>
    simp only [exactNames, List.mem_cons, List.not_mem_nil, or_false] at hn
    subst hn
    obtain ⟨a, rfl⟩ := List.length_eq_one_iff.mp hl
    simp [parametrize, halfNormalParam, kwCall, List.lookup, allNotNone, anyNotNone, halfNormalUpdate,
      Obj.setAll, Obj.set]
  | halfStudentT =>
    simp only [exactNames, List.mem_cons, List.not_mem_nil, or_false] at hn
    subst hn
    obtain ⟨a, b, rfl⟩ := List.length_eq_two.mp hl
    simp [parametrize, halfStudentTParam, kwCall, List.lookup, allNotNone, anyNotNone,
      halfStudentTUpdate, Obj.setAll, Obj.set]
  | kumaraswamy =>
    simp only [exactNames, List.mem_cons, List.not_mem_nil, or_false] at hn
    subst hn
    obtain ⟨a, b, rfl⟩ := List.length_eq_two.mp hl
    have ha : 0 < a := hd.1 "a" a rfl
    simp [parametrize, kumaraswamyParam, kwCall, List.lookup, pyAnd, ha.ne', kumaraswamyUpdate,
      Obj.setAll, Obj.set]
  | logitNormal | normal =>
    simp only [exactNames, List.mem_cons, List.not_mem_nil, or_false] at hn
    subst hn
    obtain ⟨a, b, rfl⟩ := List.length_eq_two.mp hl
    simp [parametrize, normalParam, kwCall, List.lookup, allNotNone, anyNotNone, normalUpdate,
      Obj.setAll, Obj.set]
  | skewNormal =>
    simp only [exactNames, List.mem_cons, List.not_mem_nil, or_false] at hn
    subst hn
    obtain ⟨a, b, c, rfl⟩ := List.length_eq_three.mp hl
    simp [parametrize, skewNormalParam, kwCall, List.lookup, allNotNone, anyNotNone, skewNormalUpdate,
      Obj.setAll, Obj.set]
  | skewStudentT =>
    simp only [exactNames, List.mem_cons, List.not_mem_nil, or_false] at hn
    subst hn
    obtain ⟨a, b, c, d, rfl⟩ := length_eq_four hl
    simp [parametrize, skewStudentTParam, kwCall, List.lookup, allNotNone, anyNotNone,
      skewStudentTUpdate, Obj.setAll, Obj.set]
  | studentT =>
    simp only [exactNames, List.mem_cons, List.not_mem_nil, or_false] at hn
    subst hn
    obtain ⟨a, b, c, rfl⟩ := List.length_eq_three.mp hl
    simp [parametrize, studentTParam, kwCall, List.lookup, allNotNone, anyNotNone, studentTUpdate,
      Obj.setAll, Obj.set]

/-- C26 at the level of the object: start from a partially specified object `o₀`; whatever happened to
it in between (`o`), re-parametrising with an optimiser candidate leaves an object that reports
exactly the user's values for the fixed parameters and the candidate's for the free ones.  Missing:
precision parametrisations (their values drift by one part in 10^16, see C04) and a parameter the
object never recorded (`wald_phi_not_fixed`). -/
theorem fixed_stays_partial (f : Family) (o₀ o : Obj) (hn : o₀.names ∈ exactNames f) (cand : List ℝ)
    (hc : cand.length = (getFixedParams o₀).1.length)
    (hdom : ∀ kvs, Filled o₀.names o₀.attr cand kvs → InDom f (kwCall kvs) ∧
      ∀ kv ∈ kvs, WholeParam f kv.1 → ∃ n : ℤ, kv.2 = n) :
    Gives (applyCandidate f o₀.names (getFixedParams o₀).1 (getFixedParams o₀).2 cand o) fun o' =>
      o'.names = o₀.names ∧ ∃ kvs, Filled o₀.names o₀.attr cand kvs ∧
        o'.params = some (kvs.map fun kv => some kv.2) := by
  obtain ⟨kvs, h1, h2⟩ := candidate_filled o₀ cand hc
  obtain ⟨d1, d2⟩ := hdom kvs h2
  have hz : kvs = o₀.names.zip (kvs.map Prod.snd) := by
    rw [← h2.names]
    rw [List.zip_map']
    simp
  rw [hz] at d1 d2
  obtain ⟨o', h3, h4, h5⟩ := complete_reported f o₀.names hn (kvs.map Prod.snd) o
    (by rw [List.length_map, ← h2.names, List.length_map]) d1 d2
  refine ⟨o', ?_, h4, kvs, h2, by rw [h5, List.map_map]; rfl⟩
  unfold applyCandidate
  rw [h1]
  rw [← hz] at h3
  simpa using h3

theorem setAll_map_attr (l : List String) (kw : Kw) (o : Obj) (k : String) :
    (o.setAll (l.map fun k => (k, kw k))).attr k = if k ∈ l then kw k else o.attr k := by
  induction l generalizing o with
  | nil => simp [Obj.setAll]
  | cons a l ih =>
    have : (o.setAll ((a :: l).map fun k => (k, kw k)))
        = (o.set a (kw a)).setAll (l.map fun k => (k, kw k)) := rfl
    rw [this, ih]
    by_cases h1 : k ∈ l
    · simp [h1]
    · by_cases h2 : k = a
      · subst h2; simp [h1, Obj.set]
      · simp [h1, h2, Obj.set]

/-- every parameter given by the user is recorded as fixed, under its own name, by a constructor that
leaves the object incomplete; the exception is Wald (`wald_phi_not_fixed`) -/
theorem given_is_fixed (f : Family) (kw : Kw) (o : Obj) (h : construct f kw = .ok o)
    (hfr : o.frozen = false) (hf : f ≠ .wald)
    (k : String) (hk : k ∈ args f) (v : ℝ) (hv : kw k = some v) :
    k ∈ o.names ∧ o.attr k = some v := by
  cases f with
  | simple s =>
    have ha : args (.simple s) = (simpleFam s).args := by cases s <;> rfl
    rw [ha] at hk
    simp only [construct, parametrize, Except.ok.injEq] at h
    subst h
    unfold simpleParam at hfr ⊢
    dsimp only at hfr ⊢
    by_cases hall : allNotNone ((simpleFam s).args.map kw)
    · simp [hall, simpleUpdate] at hfr
    · have hat := setAll_map_attr (simpleFam s).args kw blank k
      simp only [hk, if_true] at hat
      simp only [hall, Bool.false_eq_true, if_false]
      split <;> exact ⟨hk, hat.trans hv⟩
  | wald => exact absurd rfl hf
  | betaScaled =>
    simp only [construct, betaScaledParam] at h
    simp only [args, ways, Way.plain, List.flatMap_cons, List.flatMap_nil, List.append_nil,
      List.mem_cons, List.not_mem_nil, or_false, List.cons_append, List.nil_append] at hk
    cases h1 : kw "alpha" <;> cases h2 : kw "beta" <;>
      simp [h1, h2, betaScaledUpdate, Obj.setAll, Obj.set, blank] at h <;> subst h <;>
      rcases hk with rfl | rfl | rfl | rfl <;> simp_all
  | kumaraswamy =>
    simp only [construct, parametrize, kumaraswamyParam] at h
    simp only [args, ways, Way.plain, List.flatMap_cons, List.flatMap_nil, List.append_nil,
      List.mem_cons, List.not_mem_nil, or_false, List.cons_append, List.nil_append] at hk
    split at h <;> simp only [Except.ok.injEq] at h <;> subst h
    · simp [kumaraswamyUpdate] at hfr
    · rcases hk with rfl | rfl <;> simp [Obj.setAll, Obj.set, blank, hv]
  | ziNegativeBinomial =>
    simp only [construct, parametrize, zinbParam] at h
    simp only [args, ways, Way.plain, List.flatMap_cons, List.flatMap_nil, List.append_nil,
      List.mem_cons, List.not_mem_nil, or_false, List.cons_append, List.nil_append] at hk
    cases h1 : kw "mu" <;> cases h2 : kw "alpha" <;> cases h3 : kw "p" <;> cases h4 : kw "n" <;>
      simp [h1, h2, h3, h4, anyNotNone, allNotNone, Obj.setAll, Obj.set, blank, nbFromNP, zinbUpdate,
        pyDiv] at h <;>
      (try split_ifs at h) <;> (try simp at h) <;> subst h <;> simp at hfr <;>
      rcases hk with rfl | rfl | rfl | rfl | rfl | rfl <;> simp_all
  | negativeBinomial =>
    simp only [construct, parametrize, nbParam] at h
    simp only [args, ways, Way.plain, List.flatMap_cons, List.flatMap_nil, List.append_nil,
      List.mem_cons, List.not_mem_nil, or_false, List.cons_append, List.nil_append] at hk
    cases h1 : kw "mu" <;> cases h2 : kw "alpha" <;> cases h3 : kw "p" <;> cases h4 : kw "n" <;>
      simp [h1, h2, h3, h4, anyNotNone, allNotNone, Obj.setAll, Obj.set, blank, nbFromNP, nbUpdate,
        pyDiv] at h <;>
      (try split_ifs at h) <;> (try simp at h) <;> subst h <;> simp at hfr <;>
      rcases hk with rfl | rfl | rfl | rfl <;> simp_all
  | beta =>
    simp only [construct, parametrize, betaParam] at h
    simp only [args, ways, Way.plain, List.flatMap_cons, List.flatMap_nil, List.append_nil,
      List.mem_cons, List.not_mem_nil, or_false, List.cons_append, List.nil_append] at hk
    cases h1 : kw "alpha" <;> cases h2 : kw "beta" <;> cases h3 : kw "mu" <;> cases h4 : kw "sigma" <;>
      cases h5 : kw "nu" <;>
      simp [h1, h2, h3, h4, h5, anyNotNone, allNotNone, Obj.setAll, Obj.set, blank, betaFromMuSigma,
        betaFromMuNu, betaUpdate, pyDiv] at h <;>
      (try split_ifs at h) <;> (try simp at h) <;> subst h <;> simp at hfr <;>
      rcases hk with rfl | rfl | rfl | rfl | rfl | rfl <;> simp_all
  | gamma =>
    simp only [construct, parametrize, gammaLikeParam] at h
    simp only [args, ways, Way.plain, List.flatMap_cons, List.flatMap_nil, List.append_nil,
      List.mem_cons, List.not_mem_nil, or_false, List.cons_append, List.nil_append] at hk
    cases h1 : kw "alpha" <;> cases h2 : kw "beta" <;> cases h3 : kw "mu" <;> cases h4 : kw "sigma" <;>
      simp [h1, h2, h3, h4, anyNotNone, allNotNone, Obj.setAll, Obj.set, blank, gammaFromMuSigma,
        gammaUpdate, pyDiv] at h <;>
      (try split_ifs at h) <;> (try simp at h) <;> subst h <;> simp at hfr <;>
      rcases hk with rfl | rfl | rfl | rfl <;> simp_all
  | inverseGamma =>
    simp only [construct, parametrize, gammaLikeParam] at h
    simp only [args, ways, Way.plain, List.flatMap_cons, List.flatMap_nil, List.append_nil,
      List.mem_cons, List.not_mem_nil, or_false, List.cons_append, List.nil_append] at hk
    cases h1 : kw "alpha" <;> cases h2 : kw "beta" <;> cases h3 : kw "mu" <;> cases h4 : kw "sigma" <;>
      simp [h1, h2, h3, h4, anyNotNone, allNotNone, Obj.setAll, Obj.set, blank, invGammaFromMuSigma,
        invGammaUpdate, pyDiv] at h <;>
      (try split_ifs at h) <;> (try simp at h) <;> subst h <;> simp at hfr <;>
      rcases hk with rfl | rfl | rfl | rfl <;> simp_all
  | asymmetricLaplace =>
    simp only [construct, parametrize, asymLaplaceParam] at h
    simp only [args, ways, Way.plain, List.flatMap_cons, List.flatMap_nil, List.append_nil,
      List.mem_cons, List.not_mem_nil, or_false, List.cons_append, List.nil_append] at hk
    cases h2 : kw "q" with
    | none =>
      cases g0 : kw "kappa" <;> cases g1 : kw "mu" <;> cases g2 : kw "b" <;>
        simp [h2, g0, g1, g2, allNotNone, Obj.setAll, Obj.set, blank, asymLaplaceUpdate] at h <;>
        subst h <;> simp at hfr <;> rcases hk with rfl | rfl | rfl | rfl | rfl | rfl <;> simp_all
    | some t =>
      cases h5 : asymLaplaceFromQ t <;> cases g0 : kw "kappa" <;> cases g1 : kw "mu" <;> cases g2 : kw "b" <;>
        simp [h2, h5, g0, g1, g2, allNotNone, Obj.setAll, Obj.set, blank, asymLaplaceUpdate] at h <;>
        subst h <;> simp at hfr <;> rcases hk with rfl | rfl | rfl | rfl | rfl | rfl <;> simp_all
  | bernoulli =>
    simp only [construct, parametrize, bernoulliParam] at h
    simp only [args, ways, Way.plain, List.flatMap_cons, List.flatMap_nil, List.append_nil,
      List.mem_cons, List.not_mem_nil, or_false, List.cons_append, List.nil_append] at hk
    cases h1 : kw "p" <;> cases h2 : kw "logit_p" <;>
      simp [h1, h2, allNotNone, Obj.setAll, Obj.set, blank, bernoulliUpdate] at h <;>
      subst h <;> simp at hfr <;> rcases hk with rfl | rfl <;> simp_all
  | exponential =>
    simp only [construct, parametrize, exponentialParam] at h
    simp only [args, ways, Way.plain, List.flatMap_cons, List.flatMap_nil, List.append_nil,
      List.mem_cons, List.not_mem_nil, or_false, List.cons_append, List.nil_append] at hk
    cases h1 : kw "lam" <;> cases h2 : kw "scale" <;>
      simp [h1, h2, allNotNone, Obj.setAll, Obj.set, blank, exponentialUpdate, pyDiv] at h <;>
      (try split_ifs at h) <;> (try simp at h) <;>
      subst h <;> simp at hfr <;> rcases hk with rfl | rfl <;> simp_all
  | halfNormal =>
    simp only [construct, parametrize, halfNormalParam] at h
    simp only [args, ways, Way.plain, List.flatMap_cons, List.flatMap_nil, List.append_nil,
      List.mem_cons, List.not_mem_nil, or_false, List.cons_append, List.nil_append] at hk
    cases h2 : kw "tau" with
    | none =>
      cases g0 : kw "sigma" <;>
        simp [h2, g0, allNotNone, Obj.setAll, Obj.set, blank, halfNormalUpdate] at h <;>
        subst h <;> simp at hfr <;> rcases hk with rfl | rfl <;> simp_all
    | some t =>
      cases h5 : fromPrecision t <;> cases g0 : kw "sigma" <;>
        simp [h2, h5, g0, allNotNone, Obj.setAll, Obj.set, blank, halfNormalUpdate] at h <;>
        subst h <;> simp at hfr <;> rcases hk with rfl | rfl <;> simp_all
  | halfStudentT =>
    simp only [construct, parametrize, halfStudentTParam] at h
    simp only [args, ways, Way.plain, List.flatMap_cons, List.flatMap_nil, List.append_nil,
      List.mem_cons, List.not_mem_nil, or_false, List.cons_append, List.nil_append] at hk
    cases h2 : kw "lam" with
    | none =>
      cases g0 : kw "sigma" <;> cases g1 : kw "nu" <;>
        simp [h2, g0, g1, allNotNone, Obj.setAll, Obj.set, blank, halfStudentTUpdate] at h <;>
        subst h <;> simp at hfr <;> rcases hk with rfl | rfl | rfl | rfl <;> simp_all
    | some t =>
      cases h5 : fromPrecision t <;> cases g0 : kw "sigma" <;> cases g1 : kw "nu" <;>
        simp [h2, h5, g0, g1, allNotNone, Obj.setAll, Obj.set, blank, halfStudentTUpdate] at h <;>
        subst h <;> simp at hfr <;> rcases hk with rfl | rfl | rfl | rfl <;> simp_all
  | normal | logitNormal =>
    simp only [construct, parametrize, normalParam] at h
    simp only [args, ways, Way.plain, List.flatMap_cons, List.flatMap_nil, List.append_nil,
      List.mem_cons, List.not_mem_nil, or_false, List.cons_append, List.nil_append] at hk
    cases h2 : kw "tau" with
    | none =>
      cases g0 : kw "sigma" <;> cases g1 : kw "mu" <;>
        simp [h2, g0, g1, allNotNone, Obj.setAll, Obj.set, blank, normalUpdate] at h <;>
        subst h <;> simp at hfr <;> rcases hk with rfl | rfl | rfl | rfl <;> simp_all
    | some t =>
      cases h5 : fromPrecision t <;> cases g0 : kw "sigma" <;> cases g1 : kw "mu" <;>
        simp [h2, h5, g0, g1, allNotNone, Obj.setAll, Obj.set, blank, normalUpdate] at h <;>
        subst h <;> simp at hfr <;> rcases hk with rfl | rfl | rfl | rfl <;> simp_all
  | skewNormal =>
    simp only [construct, parametrize, skewNormalParam] at h
    simp only [args, ways, Way.plain, List.flatMap_cons, List.flatMap_nil, List.append_nil,
      List.mem_cons, List.not_mem_nil, or_false, List.cons_append, List.nil_append] at hk
    cases h2 : kw "tau" with
    | none =>
      cases g0 : kw "sigma" <;> cases g1 : kw "mu" <;> cases g2 : kw "alpha" <;>
        simp [h2, g0, g1, g2, allNotNone, Obj.setAll, Obj.set, blank, skewNormalUpdate] at h <;>
        subst h <;> simp at hfr <;> rcases hk with rfl | rfl | rfl | rfl | rfl | rfl <;> simp_all
    | some t =>
      cases h5 : fromPrecision t <;> cases g0 : kw "sigma" <;> cases g1 : kw "mu" <;> cases g2 : kw "alpha" <;>
        simp [h2, h5, g0, g1, g2, allNotNone, Obj.setAll, Obj.set, blank, skewNormalUpdate] at h <;>
        subst h <;> simp at hfr <;> rcases hk with rfl | rfl | rfl | rfl | rfl | rfl <;> simp_all
  | studentT =>
    simp only [construct, parametrize, studentTParam] at h
    simp only [args, ways, Way.plain, List.flatMap_cons, List.flatMap_nil, List.append_nil,
      List.mem_cons, List.not_mem_nil, or_false, List.cons_append, List.nil_append] at hk
    cases h2 : kw "lam" with
    | none =>
      cases g0 : kw "sigma" <;> cases g1 : kw "mu" <;> cases g2 : kw "nu" <;>
        simp [h2, g0, g1, g2, allNotNone, Obj.setAll, Obj.set, blank, studentTUpdate] at h <;>
        subst h <;> simp at hfr <;> rcases hk with rfl | rfl | rfl | rfl | rfl | rfl <;> simp_all
    | some t =>
      cases h5 : fromPrecision t <;> cases g0 : kw "sigma" <;> cases g1 : kw "mu" <;> cases g2 : kw "nu" <;>
        simp [h2, h5, g0, g1, g2, allNotNone, Obj.setAll, Obj.set, blank, studentTUpdate] at h <;>
        subst h <;> simp at hfr <;> rcases hk with rfl | rfl | rfl | rfl | rfl | rfl <;> simp_all
  | skewStudentT =>
    simp only [construct, parametrize, skewStudentTParam] at h
    simp only [args, ways, Way.plain, List.flatMap_cons, List.flatMap_nil, List.append_nil,
      List.mem_cons, List.not_mem_nil, or_false, List.cons_append, List.nil_append] at hk
    cases h2 : kw "lam" with
    | none =>
      cases g0 : kw "sigma" <;> cases g1 : kw "mu" <;> cases g2 : kw "a" <;> cases g3 : kw "b" <;>
        simp [h2, g0, g1, g2, g3, allNotNone, Obj.setAll, Obj.set, blank, skewStudentTUpdate] at h <;>
        subst h <;> simp at hfr <;> rcases hk with rfl | rfl | rfl | rfl | rfl | rfl | rfl | rfl <;> simp_all
    | some t =>
      cases h5 : fromPrecision t <;> cases g0 : kw "sigma" <;> cases g1 : kw "mu" <;> cases g2 : kw "a" <;> cases g3 : kw "b" <;>
        simp [h2, h5, g0, g1, g2, g3, allNotNone, Obj.setAll, Obj.set, blank, skewStudentTUpdate] at h <;>
        subst h <;> simp at hfr <;> rcases hk with rfl | rfl | rfl | rfl | rfl | rfl | rfl | rfl <;> simp_all
  | rice =>
    simp only [construct, parametrize, riceParam] at h
    simp only [args, ways, Way.plain, List.flatMap_cons, List.flatMap_nil, List.append_nil,
      List.mem_cons, List.not_mem_nil, or_false, List.cons_append, List.nil_append] at hk
    cases h1 : kw "nu" <;> cases h2 : kw "b" <;> cases h3 : kw "sigma" <;>
      simp [h1, h2, h3, allNotNone, Obj.setAll, Obj.set, blank, riceUpdate] at h <;>
      subst h <;> simp at hfr <;> rcases hk with rfl | rfl | rfl | rfl <;> simp_all

/-- `Normal(mu=1)` with the candidate `sigma=2` meets the hypotheses -/
example : ∃ o₀ : Obj, construct .normal (kwOf [("mu", 1)]) = .ok o₀ ∧ o₀.frozen = false ∧
    o₀.names ∈ exactNames .normal ∧
    ([2] : List ℝ).length = (getFixedParams o₀).1.length ∧
    ∀ kvs, Filled o₀.names o₀.attr [2] kvs → InDom .normal (kwCall kvs) := by
  refine ⟨⟨(blank.setAll [("mu", some 1), ("sigma", none)]).attr, ["mu", "sigma"], none, false⟩, ?_, rfl, by simp [exactNames], ?_, ?_⟩
  · simp [construct, parametrize, normalParam, kwOf, List.lookup, allNotNone, blank]
  · simp [getFixedParams, splitStep, Obj.setAll, Obj.set, blank]
  · rintro kvs ⟨h1, h2, h3⟩
    match kvs, h1 with
    | [(a, x), (b, y)], h1 =>
      simp only [List.map_cons, List.map_nil, List.cons.injEq, and_true] at h1
      obtain ⟨rfl, rfl⟩ := h1
      simp [Obj.setAll, Obj.set, blank] at h3
      subst h3
      refine ⟨?_, by simp [Regular], by simp⟩
      intro k v hk
      simp only [kwCall, List.lookup] at hk
      by_cases h : k = "sigma"
      · subst h
        simp at hk
        subst hk
        simp [inRange]
      · unfold inRange
        split <;> simp_all

/-- C26 fails for Normal given `tau`: no candidate for `mu` leaves the user's precision in place. -/
theorem tau_not_fixed (tau mu : ℝ) (ht : 0 < tau) :
    Gives (construct .normal (kwOf [("tau", tau)])) fun o =>
      (getFixedParams o).2 = [tau] ∧
      Gives (applyCandidate .normal o.names (getFixedParams o).1 (getFixedParams o).2 [mu] o) fun o' =>
        ∃ t, o'.attr "tau" = some t ∧ t < tau := by
  have hf := fromPrecision_ok ht
  simp only [one_div] at hf
  simp [construct, parametrize, normalParam, kwOf, List.lookup, allNotNone, Obj.setAll, Obj.set, hf,
    blank, getFixedParams, splitStep, applyCandidate, getParams, getParamsFrom, kwCall, normalUpdate,
    Except.map]
  unfold toPrecision
  rw [inv_pow, Real.sq_sqrt ht.le, div_lt_iff₀ (by have := eps_pos; positivity), mul_add,
    mul_inv_cancel₀ ht.ne']
  have := mul_pos ht eps_pos
  linarith

/-- C26 fails for Wald: `Wald(phi=2)` records no fixed parameter at all, and any optimiser candidate
(mu, lam) is applied with phi = lam / mu. -/
theorem wald_phi_not_fixed :
    Gives (construct .wald (kwOf [("phi", 2)])) fun o =>
      (getFixedParams o).2 = [] ∧
      Gives (applyCandidate .wald o.names (getFixedParams o).1 (getFixedParams o).2 [1, 1] o) fun o' =>
        o'.attr "phi" = some 1 := by
  simp [construct, parametrize, waldParam, kwOf, List.lookup, allNotNone, pyAnd, Obj.setAll, Obj.set,
    blank, getFixedParams, splitStep, applyCandidate, getParams, getParamsFrom, kwCall, waldUpdate,
    waldToPhi, Except.map]

end Verif.Props
