import Verif.Model.PlotCall
import Mathlib.Tactic

/-!
# C96: what `plot` passes on, arrays of parameters, keyword arguments
-/

namespace Verif.Props

open Verif.PlotCall

/-- the five names -/
def kindName : Kind → String
  | .pdf => "pdf" | .cdf => "cdf" | .ppf => "ppf" | .sf => "sf" | .isf => "isf"

/-- the function that draws a univariate distribution -/
def drawerName : Kind → String
  | .pdf => "plot_pdfpmf" | .cdf => "plot_cdf" | .ppf => "plot_ppf" | .sf => "plot_sf" | .isf => "plot_isf"

/-- the arguments of `plot` that matter for each kind (its documentation) -/
def meant (k : Kind) : List String :=
  ["moments", "pointinterval", "interval", "levels", "legend", "figsize", "ax"] ++
    (if k = .ppf ∨ k = .isf then [] else ["support"]) ++ (if k = .pdf then ["baseline"] else [])

/-- the names of arguments of `plot` itself: no further keyword can have one of them -/
def plotNames : List String :=
  ["dist", "kind", "moments", "marginals", "pointinterval", "interval", "levels", "support", "baseline", "legend",
    "figsize", "ax"]

/-- further keywords as Python can pass them -/
structure Extra {α : Type} (extra : List (String × α)) : Prop where
  nodup : (extra.map Prod.fst).Nodup
  own : ∀ n ∈ extra.map Prod.fst, n ∉ plotNames ∧ n ≠ "self"

theorem kind_names (k : Kind) : Kind.ofString (kindName k) = some k := by
  cases k <;> decide

/-- **C96**: `plot` refuses every other kind. -/
theorem plot_kind {α : Type} (c : Cls) (s : String) (user : String → α) (extra : List (String × α))
    (h : ∀ k, s ≠ kindName k) : plot c s user extra = .error .valueError := by
  have : Kind.ofString s = none := by
    have h1 := h .pdf
    have h2 := h .cdf
    have h3 := h .ppf
    have h4 := h .sf
    have h5 := h .isf
    simp only [kindName] at h1 h2 h3 h4 h5
    simp [Kind.ofString, h1, h2, h3, h4, h5]
  unfold plot
  rw [this]

private theorem lookup_map {α : Type} (l : List String) (user : String → α) (r : List (String × α)) (n : String)
    (h : n ∈ l) : (l.map (fun n => (n, user n)) ++ r).lookup n = some (user n) := by
  induction l with
  | nil => cases h
  | cons a t ih =>
    by_cases ha : n = a
    · subst ha
      simp
    · rcases List.mem_cons.mp h with h | h
      · exact absurd h ha
      · have hb : (n == a) = false := by simpa using ha
        simpa [List.lookup, hb] using ih h

private theorem filter_own {α : Type} (l params : List String) (user : String → α) (r : List (String × α))
    (h1 : ∀ n ∈ l, n ∈ params) (h2 : ∀ n ∈ r.map Prod.fst, n ∉ params) :
    (l.map (fun n => (n, user n)) ++ r).filter (fun p => p.1 ∉ params) = r := by
  rw [List.filter_append]
  have e1 : (l.map fun n => (n, user n)).filter (fun p => p.1 ∉ params) = [] := by
    rw [List.filter_eq_nil_iff]
    intro p hp
    simp only [List.mem_map] at hp
    obtain ⟨n, hn, rfl⟩ := hp
    simp [h1 n hn]
  have e2 : r.filter (fun p => p.1 ∉ params) = r := by
    rw [List.filter_eq_self]
    intro p hp
    simpa using h2 p.1 (List.mem_map_of_mem hp)
  rw [e1, e2, List.nil_append]

private theorem given_names {α : Type} (l : List String) (user : String → α) (r : List (String × α)) :
    (l.map (fun n => (n, user n)) ++ r).map Prod.fst = l ++ r.map Prod.fst := by
  rw [List.map_append, List.map_map]
  congr 1
  exact List.map_id l

private theorem given_nodup {α : Type} (c : Cls) (k : Kind) (extra : List (String × α)) (h : Extra extra) :
    (mandatory c k ++ extra.map Prod.fst).Nodup ∧ "self" ∉ mandatory c k ++ extra.map Prod.fst := by
  have hm : (mandatory c k).Nodup ∧ "self" ∉ mandatory c k ∧ ∀ n ∈ mandatory c k, n ∈ plotNames := by
    cases c <;> cases k <;> decide
  refine ⟨List.Nodup.append hm.1 h.nodup ?_, ?_⟩
  · intro n h1 h2
    exact (h.own n h2).1 (hm.2.2 n h1)
  · rw [List.mem_append]
    rintro (h1 | h1)
    · exact hm.2.1 h1
    · exact (h.own _ h1).2 rfl

/-- **C96**: of a univariate distribution, `plot` reaches the drawing function of the kind; every argument that matters
arrives unchanged at the parameter of the same name, the further keywords as they are. -/
theorem plot_univariate {α : Type} (k : Kind) (user : String → α) (extra : List (String × α)) (h : Extra extra) :
    ∃ env, plot .univariate (kindName k) user extra = .ok ⟨drawerName k, env⟩ ∧
      (∀ n ∈ meant k, env.lookup n = some (.user (user n))) ∧ env.lookup "dist" = some .self ∧
      env.lookup "kwargs" = some (.dict extra) ∧
      env.map Prod.fst ⊆ meant k ++ ["dist", "kwargs"] := by
  obtain ⟨h1, h2⟩ := given_nodup .univariate k extra h
  have hp : ∀ n ∈ extra.map Prod.fst, n ∉ methodParams .univariate k := by
    intro n hn hm
    have : ∀ n ∈ methodParams .univariate k, n ∈ plotNames := by cases k <;> decide
    exact (h.own n hn).1 (this n hm)
  have hs : ∀ n ∈ mandatory .univariate k, n ∈ methodParams .univariate k := by cases k <;> decide
  have hl : ∀ n ∈ mandatory .univariate k, srcValue
      ((mandatory .univariate k).map (fun n => (n, user n)) ++ extra) extra (.param n) = .user (user n) := by
    intro n hn
    simp only [srcValue]
    rw [lookup_map _ _ _ _ hn]
  have hf := filter_own (mandatory .univariate k) (methodParams .univariate k) user extra hs hp
  unfold plot callMethod
  rw [kind_names]
  simp only [given_names]
  rw [if_neg (by rintro (h' | h'); exacts [h' h1, h2 h']), if_neg (by simp [hasKwargs]), hf]
  generalize (mandatory .univariate k).map (fun n => (n, user n)) ++ extra = g at hl ⊢
  have he : ∀ k, ((drawer .univariate k).2.1.zip ((drawer .univariate k).2.2.map (srcValue g extra))).map Prod.fst =
      (drawer .univariate k).2.1 := by
    intro k
    rw [List.map_fst_zip]
    cases k <;> simp [drawer, ps]
  cases k <;>
  · refine ⟨_, rfl, ?_, rfl, rfl, by rw [he]; decide⟩
    intro n hn
    have hn' := hn
    simp [meant] at hn
    rcases hn with rfl | rfl | rfl | rfl | rfl | rfl | rfl | rfl | rfl <;> exact congrArg some (hl _ (by decide))

example : Extra [("color", 1), ("alpha", (2 : ℝ))] := ⟨by decide, by decide⟩

/-- **C96**: a plotting method of a univariate distribution called with keywords: a keyword that matters for the kind
arrives at the parameter of the same name, one that is not given has its default, and every other keyword, also one of
another kind, goes on as it is. -/
theorem plot_method_univariate {α : Type} (k : Kind) (given : List (String × α)) (h : (given.map Prod.fst).Nodup)
    (hs : "self" ∉ given.map Prod.fst) :
    ∃ env, callMethod .univariate k given = .ok ⟨drawerName k, env⟩ ∧
      (∀ n ∈ meant k, ∀ a, given.lookup n = some a → env.lookup n = some (.user a)) ∧
      (∀ n ∈ meant k, given.lookup n = none → env.lookup n = some .default) ∧
      env.lookup "kwargs" = some (.dict (given.filter fun p => p.1 ∉ meant k)) := by
  have hp : ∀ n, n ∈ methodParams .univariate k ↔ n ∈ meant k := by
    intro n
    cases k <;> simp [methodParams, meant] <;> tauto
  have hf : (given.filter fun p => p.1 ∉ methodParams .univariate k) = given.filter fun p => p.1 ∉ meant k := by
    simp only [hp]
  unfold callMethod
  simp only
  rw [if_neg (by rintro (h' | h'); exacts [h' h, hs h']), if_neg (by simp [hasKwargs]), hf]
  generalize (given.filter fun p => p.1 ∉ meant k) = r
  have hl : ∀ n ∈ meant k,
      ((drawer .univariate k).2.1.zip ((drawer .univariate k).2.2.map (srcValue given r))).lookup n =
        some (srcValue given r (.param n)) := by
    intro n hn
    cases k <;> simp [meant] at hn <;>
      rcases hn with rfl | rfl | rfl | rfl | rfl | rfl | rfl | rfl | rfl <;> rfl
  refine ⟨(drawer .univariate k).2.1.zip ((drawer .univariate k).2.2.map (srcValue given r)), ?_, ?_, ?_, ?_⟩
  · cases k <;> rfl
  · intro n hn a ha
    rw [hl n hn]
    simp [srcValue, ha]
  · intro n hn ha
    rw [hl n hn]
    simp [srcValue, ha]
  · cases k <;> rfl

/-- a keyword of the density given to the cumulative distribution is passed on -/
example : ([("levels", 1), ("baseline", (2 : ℝ))].map Prod.fst).Nodup ∧ "baseline" ∉ meant .cdf := by decide

/-- **C96**: a plotting method of a Dirichlet or MvNormal refuses every keyword it does not name. -/
theorem plot_method_multivariate {α : Type} (c : Cls) (hc : c ≠ .univariate) (k : Kind) (given : List (String × α))
    (n : String) (hn : n ∈ given.map Prod.fst) (hm : n = "moments" ∨ n ∉ meant k ++ if k = .pdf then ["marginals"] else []) :
    callMethod c k given = .error .typeError := by
  have hp : n ∉ methodParams c k := by
    cases c <;> cases k <;> simp_all [methodParams, meant] <;> rcases hm with rfl | hm <;> simp_all
  unfold callMethod
  simp only
  split_ifs with h1 h2
  · rfl
  · rfl
  · exact absurd ⟨by cases c <;> simp_all [hasKwargs], by
      simp only [List.any_eq_true, decide_eq_true_eq]
      exact ⟨n, hn, hp⟩⟩ h2

example : "moments" ∈ ([("moments", (1 : ℝ))]).map Prod.fst := by decide

/-- **C96**: of a Dirichlet or MvNormal, without further keywords, every argument arrives at the parameter of the same
name (`ax` is called `axes`), `marginals` for the density; the other four always draw marginals. -/
theorem plot_multivariate {α : Type} (c : Cls) (hc : c ≠ .univariate) (k : Kind) (user : String → α) :
    ∃ env, plot c (kindName k) user [] = .ok ⟨if c = .dirichlet then "plot_dirichlet" else "plot_mvnormal", env⟩ ∧
      (∀ n ∈ ["pointinterval", "interval", "levels", "legend", "figsize"], env.lookup n = some (.user (user n))) ∧
      env.lookup "axes" = some (.user (user "ax")) ∧
      env.lookup "dist" = some .self ∧ env.lookup "representation" = some (.str (kindName k)) ∧
      env.lookup "marginals" = some (if k = .pdf then .user (user "marginals") else .str "marginals") ∧
      env.lookup "support" = some (if k = .ppf ∨ k = .isf then .none else .user (user "support")) ∧
      env.lookup "baseline" = some (if k = .pdf then .user (user "baseline") else .none) := by
  cases c
  · exact absurd rfl hc
  all_goals
    cases k <;>
    · refine ⟨_, rfl, ?_, rfl, rfl, rfl, rfl, rfl, rfl⟩
      intro n hn
      simp at hn
      rcases hn with rfl | rfl | rfl | rfl | rfl <;> rfl

/-- **C96**: the documentation lets `plot` take further keywords; of a Dirichlet or MvNormal they are a TypeError. -/
theorem plot_multivariate_keywords {α : Type} (c : Cls) (hc : c ≠ .univariate) (k : Kind) (user : String → α)
    (extra : List (String × α)) (h : Extra extra) (hne : extra ≠ []) :
    plot c (kindName k) user extra = .error .typeError := by
  obtain ⟨h1, h2⟩ := given_nodup c k extra h
  obtain ⟨⟨n, a⟩, t, rfl⟩ := List.exists_cons_of_ne_nil hne
  have hp : n ∉ methodParams c k := by
    intro hm
    have : ∀ n ∈ methodParams c k, n ∈ plotNames := by cases c <;> cases k <;> decide
    exact (h.own n (by simp)).1 (this n hm)
  unfold plot callMethod
  rw [kind_names]
  simp only [given_names]
  rw [if_neg (by rintro (h' | h'); exacts [h' h1, h2 h'])]
  rw [if_pos]
  refine ⟨by cases c <;> simp_all [hasKwargs], ?_⟩
  rw [List.any_eq_true]
  exact ⟨n, by simp, by simpa using hp⟩

/-! ## Arrays of parameters -/

/-- **C96**: no plotting method of a univariate distribution draws anything before the parameters are fixed. -/
theorem plot_unfrozen (o : Obj) (k : Kind) (h : o.frozen = false) : curves o k = .error .valueError := by
  unfold curves validScalar
  rw [if_pos h]
  rfl

/-- **C96**: with scalar parameters all five draw the distribution itself, once. -/
theorem plot_scalar (o : Obj) (k : Kind) (h : o.frozen = true) (hs : ∀ p ∈ o.params, ∃ v, p = Par.num v) :
    curves o k = .ok [.self] := by
  have : o.params.all Par.isNum = true := by
    rw [List.all_eq_true]
    intro p hp
    obtain ⟨v, rfl⟩ := hs p hp
    rfl
  unfold curves validScalar
  rw [if_neg (by simp [h]), this]
  simp [Except.ok_bind', Except.pure_eq]

private theorem not_all (o : Obj) (l : List ℝ) (hl : Par.arr l ∈ o.params) :
    o.params.all Par.isNum = false := by
  rw [List.all_eq_false]
  exact ⟨_, hl, by simp [Par.isNum]⟩

/-- **C96**: with an array among the parameters (Categorical and Mixture apart), `plot_cdf`, `plot_ppf`, `plot_sf` and
`plot_isf` raise ValueError: the loop over the parameters they contain is never reached. -/
theorem plot_array_refused (o : Obj) (k : Kind) (hk : k ≠ .pdf) (h : o.frozen = true) (l : List ℝ)
    (hl : Par.arr l ∈ o.params) (hc : o.cls ≠ "Categorical") (hm : o.cls ≠ "Mixture") :
    curves o k = .error .valueError := by
  unfold curves validScalar
  rw [if_neg (by simp [h]), not_all o l hl]
  simp [hc, hm, hk, Except.error_bind']

/-- **C96**: a Categorical and a Mixture, whose parameters are arrays, are drawn once by all five. -/
theorem plot_array_single (o : Obj) (k : Kind) (h : o.frozen = true) (hc : o.cls = "Categorical" ∨ o.cls = "Mixture") :
    curves o k = .ok [.self] := by
  unfold curves validScalar
  rw [if_neg (by simp [h])]
  rcases hc with hc | hc <;> simp [hc, Except.ok_bind', Except.pure_eq]

private theorem commonLength_eq (ls : List ℕ) (n : ℕ) (h : ∀ m ∈ ls, m = 1 ∨ m = n) (hn : n ∈ ls) :
    commonLength ls = .ok n := by
  unfold commonLength
  by_cases h1 : n = 1
  · subst h1
    have : ls.filter (· ≠ 1) = [] := by
      rw [List.filter_eq_nil_iff]
      intro m hm
      rcases h m hm with h | h <;> simp [h]
    rw [this]
  · have hmem : ∀ m ∈ ls.filter (· ≠ 1), m = n := by
      intro m hm
      rw [List.mem_filter] at hm
      rcases h m hm.1 with h | h
      · simp [h] at hm
      · exact h
    have hin : n ∈ ls.filter (· ≠ 1) := by
      rw [List.mem_filter]
      exact ⟨hn, by simpa using h1⟩
    cases hc : ls.filter (· ≠ 1) with
    | nil => rw [hc] at hin; cases hin
    | cons a r =>
      rw [hc] at hmem
      have ha := hmem a (by simp)
      subst ha
      have : r.all (· = a) = true := by
        rw [List.all_eq_true]
        intro m hm
        simpa using hmem m (by simp [hm])
      simp [this]

/-- **C96**: `plot_pdf` of a distribution with arrays of one length (the other parameters scalars)
draws one curve for every entry; its parameters are those entries and the scalars, under their own names. -/
theorem plot_pdf_arrays (o : Obj) (h : o.frozen = true) (l : List ℝ) (hl : Par.arr l ∈ o.params)
    (hs : ∀ p ∈ o.params, (∃ v, p = Par.num v) ∨ ∃ m, p = Par.arr m ∧ m.length = l.length)
    (hn : o.names.length = o.params.length)
    (hc : o.cls ≠ "Categorical") (hm : o.cls ≠ "Mixture") :
    ∃ cs, curves o .pdf = .ok cs ∧ cs.length = l.length ∧
      ∀ j < l.length, ∃ c, cs[j]? = some (.copy c) ∧ c.map Prod.fst = o.names ∧
        ∀ (i : ℕ) (n : String), o.names[i]? = some n →
          (∀ v : ℝ, o.params[i]? = some (Par.num v) → c[i]? = some (n, v)) ∧
          (∀ (m : List ℝ) (v : ℝ), o.params[i]? = some (Par.arr m) → m[j]? = some v → c[i]? = some (n, v)) := by
  have hcl : commonLength (o.params.map fun p => p.list.length) = .ok l.length := by
    apply commonLength_eq
    · intro m hm
      rw [List.mem_map] at hm
      obtain ⟨p, hp, rfl⟩ := hm
      rcases hs p hp with ⟨v, rfl⟩ | ⟨m, rfl, e⟩
      · left; rfl
      · right; exact e
    · exact List.mem_map.mpr ⟨_, hl, rfl⟩
  have hne : o.params ≠ [] := by
    intro e
    rw [e] at hl
    cases hl
  have hval : validScalar o (decide (Kind.pdf ≠ .pdf)) = .ok false := by
    unfold validScalar
    rw [if_neg (by simp [h]), not_all o l hl]
    simp [hc, hm]
  refine ⟨(List.range l.length).map fun j => .copy (o.names.zip (o.params.map fun p => p.entry j)), ?_, by simp, ?_⟩
  · unfold curves unpack
    rw [hval, hcl]
    simp [Except.ok_bind', Except.pure_eq, hne]
  · intro j hj
    refine ⟨o.names.zip (o.params.map fun p => p.entry j), by simp [hj], ?_, ?_⟩
    · rw [List.map_fst_zip]
      simp [hn]
    · intro i n hi
      constructor
      · intro v hv
        simp [List.getElem?_zip_eq_some, hi, hv, Par.entry, Par.list]
      · intro m v hv hmj
        have hmem : Par.arr m ∈ o.params := List.mem_of_getElem? hv
        have hlen : m.length = l.length := by
          rcases hs _ hmem with ⟨v, e⟩ | ⟨m', e, e'⟩
          · cases e
          · cases e; exact e'
        have : Par.entry (.arr m) j = v := by
          unfold Par.entry Par.list
          by_cases h1 : m.length = 1
          · have : j = 0 := by omega
            subst this
            rw [if_pos h1, List.getD_eq_getElem?_getD, hmj]
            rfl
          · rw [if_neg h1, List.getD_eq_getElem?_getD, hmj]
            rfl
        simp [List.getElem?_zip_eq_some, hi, hv, this]

/-- `Normal([0, 1, 2], 0.5)` -/
noncomputable def normals : Obj := ⟨"Normal", false, true, ["mu", "sigma"], [.arr [0, 1, 2], .num (1 / 2)]⟩

example : ∃ l, Par.arr l ∈ normals.params := ⟨[0, 1, 2], by simp [normals]⟩

example : curves normals .pdf = .ok [.copy [("mu", 0), ("sigma", 1 / 2)], .copy [("mu", 1), ("sigma", 1 / 2)],
    .copy [("mu", 2), ("sigma", 1 / 2)]] := by
  simp [normals, curves, Par.isNum, validScalar, unpack, commonLength, Par.list, Par.entry, List.range_succ, Except.ok_bind',
    Except.pure_eq]

/-- **C96**: arrays of two different lengths, none of them one, are a ValueError in `plot_pdf`. -/
theorem plot_pdf_lengths (o : Obj) (h : o.frozen = true) (l m : List ℝ) (hl : Par.arr l ∈ o.params)
    (hm : Par.arr m ∈ o.params) (h1 : l.length ≠ 1) (h2 : m.length ≠ 1) (hd : l.length ≠ m.length)
    (hc : o.cls ≠ "Categorical") (hx : o.cls ≠ "Mixture") : curves o .pdf = .error .valueError := by
  have hcl : commonLength (o.params.map fun p => p.list.length) = .error .valueError := by
    unfold commonLength
    have i1 : l.length ∈ (o.params.map fun p => p.list.length).filter (· ≠ 1) := by
      rw [List.mem_filter]
      exact ⟨List.mem_map.mpr ⟨_, hl, rfl⟩, by simpa using h1⟩
    have i2 : m.length ∈ (o.params.map fun p => p.list.length).filter (· ≠ 1) := by
      rw [List.mem_filter]
      exact ⟨List.mem_map.mpr ⟨_, hm, rfl⟩, by simpa using h2⟩
    cases hq : (o.params.map fun p => p.list.length).filter (· ≠ 1) with
    | nil => rw [hq] at i1; cases i1
    | cons a r =>
      rw [hq] at i1 i2
      have : r.all (· = a) = false := by
        rw [List.all_eq_false]
        rcases List.mem_cons.mp i1 with e1 | e1
        · rcases List.mem_cons.mp i2 with e2 | e2
          · omega
          · exact ⟨_, e2, by simp; omega⟩
        · by_cases e : l.length = a
          · rcases List.mem_cons.mp i2 with e2 | e2
            · omega
            · exact ⟨_, e2, by simp; omega⟩
          · exact ⟨_, e1, by simpa using e⟩
      simp [this]
  have hval : validScalar o (decide (Kind.pdf ≠ .pdf)) = .ok false := by
    unfold validScalar
    rw [if_neg (by simp [h]), not_all o l hl]
    simp [hc, hx]
  unfold curves unpack
  rw [hval, hcl]
  simp [Except.ok_bind', Except.error_bind']

/-! ## Keyword arguments -/

/-- the style the user asks for -/
def asked {α : Type} (kw : List (String × α)) : Style α :=
  ⟨kw.lookup "ls", kw.lookup "marker", kw.filter fun p => p.1 ≠ "ls" ∧ p.1 ≠ "marker"⟩

/-- the style without the line and the marker -/
def bare {α : Type} (kw : List (String × α)) : Style α :=
  ⟨none, none, kw.filter fun p => p.1 ≠ "ls" ∧ p.1 ≠ "marker"⟩

/-- **C96**: of a continuous distribution, and of Categorical and Bernoulli, every curve has the style asked for. -/
theorem plot_pdf_style {α : Type} (o : Obj)
    (ho : o.discrete = false ∨ o.cls = "Categorical" ∨ o.cls = "Bernoulli") (cs : List Curve)
    (kw : List (String × α)) : drawAll o cs kw = List.replicate cs.length (asked kw) := by
  have h1 : (o.discrete && !(o.cls = "Categorical" || o.cls = "Bernoulli")) = false := by
    rcases ho with h | h | h <;> simp [h]
  induction cs with
  | nil => rfl
  | cons c t ih =>
    have e : drawOne o kw = (asked kw, kw) := by
      unfold drawOne
      rw [h1]
      rfl
    unfold drawAll
    rw [e]
    simp only [List.length_cons, List.replicate_succ]
    rw [ih]

private theorem lookup_filter {α : Type} (kw : List (String × α)) (a b : String) (h : a ≠ b) :
    (kw.filter fun p => p.1 ≠ b).lookup a = kw.lookup a := by
  induction kw with
  | nil => rfl
  | cons p t ih =>
    obtain ⟨n, v⟩ := p
    by_cases hn : n = b
    · subst hn
      have : (a == n) = false := by simpa using h
      simp only [List.filter, ne_eq, not_true, decide_false, List.lookup, this]
      exact ih
    · by_cases ha : a = n
      · subst ha
        simp [List.filter, h, List.lookup]
      · have : (a == n) = false := by simpa using ha
        simp only [List.filter, ne_eq, hn, not_false_eq_true, decide_true, List.lookup, this]
        exact ih

private theorem lookup_absent {α : Type} (kw : List (String × α)) (P : String → Prop) [DecidablePred P] (a : String)
    (h : ¬ P a) : (kw.filter fun p => P p.1).lookup a = none := by
  rw [List.lookup_eq_none_iff]
  intro p hp
  rw [List.mem_filter] at hp
  simp only [ne_eq, bne_iff_ne]
  rintro rfl
  exact h (by simpa using hp.2)

/-- **C96**: of any other discrete distribution only the first curve of a `plot_pdf` with arrays of parameters has the line
and the marker asked for; all later ones have the dotted line and round markers of the default. -/
theorem plot_pmf_style {α : Type} (o : Obj) (hd : o.discrete = true) (h1 : o.cls ≠ "Categorical")
    (h2 : o.cls ≠ "Bernoulli") (c : Curve) (cs : List Curve) (kw : List (String × α)) :
    drawAll o (c :: cs) kw = asked kw :: List.replicate cs.length (bare kw) := by
  have hb : (o.discrete && !(o.cls = "Categorical" || o.cls = "Bernoulli")) = true := by simp [hd, h1, h2]
  have hf : ∀ kw : List (String × α), (kw.filter fun p => p.1 ≠ "ls").filter (fun p => p.1 ≠ "marker") =
      kw.filter fun p => p.1 ≠ "ls" ∧ p.1 ≠ "marker" := by
    intro kw
    rw [List.filter_filter]
    congr 1
    funext p
    simp [Bool.and_comm]
  have e : ∀ kw : List (String × α), drawOne o kw = (asked kw, (bare kw).rest) := by
    intro kw
    unfold drawOne
    rw [hb]
    simp only [if_true, pop, hf, asked, bare, lookup_filter kw "marker" "ls" (by decide)]
  have idem : asked (bare kw).rest = bare kw := by
    unfold asked bare
    simp only [Style.mk.injEq]
    refine ⟨lookup_absent kw (fun n => n ≠ "ls" ∧ n ≠ "marker") _ (by simp),
      lookup_absent kw (fun n => n ≠ "ls" ∧ n ≠ "marker") _ (by simp), ?_⟩
    rw [List.filter_filter]
    simp
  have rest : (bare (bare kw).rest).rest = (bare kw).rest := by
    unfold bare
    rw [List.filter_filter]
    simp
  have key : ∀ cs : List Curve, drawAll o cs (bare kw).rest = List.replicate cs.length (bare kw) := by
    intro cs
    induction cs with
    | nil => rfl
    | cons c t ih =>
      unfold drawAll
      rw [e]
      simp only [rest, idem, List.length_cons, List.replicate_succ, ih]
  unfold drawAll
  rw [e]
  simp only [key]

/-- the claim that every curve has the style asked for fails for discrete distributions -/
theorem plot_pmf_style_lost : ∃ (o : Obj) (cs : List Curve) (kw : List (String × ℝ)) (s : Style ℝ),
    curves o .pdf = .ok cs ∧ s ∈ drawAll o cs kw ∧ kw.lookup "marker" = some 7 ∧ s.marker = none := by
  refine ⟨⟨"Poisson", true, true, ["mu"], [.arr [1, 2]]⟩, [.copy [("mu", 1)], .copy [("mu", 2)]], [("marker", 7)],
    bare [("marker", 7)], ?_, ?_, rfl, rfl⟩
  · simp [curves, Par.isNum, validScalar, unpack, commonLength, Par.list, Par.entry, List.range_succ, Except.ok_bind',
      Except.pure_eq]
  · rw [plot_pmf_style _ rfl (by simp) (by simp)]
    simp

end Verif.Props
