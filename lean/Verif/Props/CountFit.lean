import Verif.Props.CountLaw

/-!
# C134: fitting a mean and a variance to a count family
-/

namespace Verif.Props
open MeasureTheory Verif Verif.Spec Verif.Param Verif.Optim Verif.NumFit Verif.Law

private theorem ce : (0 : ℝ) < eps ∧ eps < 1 := by unfold eps; constructor <;> norm_num

private theorem int64_nat (n : ℕ) : int64 (n : ℝ) = n := by
  unfold int64
  rw [if_pos (by positivity)]
  simp

private theorem cf_filled (F : CountPair) (o d : Obj) (ho : construct F.family F.given = .ok o) (x : List ℝ)
    (kvs : List (String × ℝ)) (hk : Filled o.names o.attr x kvs)
    (hd : construct F.family (fun k => kvs.lookup k) = .ok d) :
    ∃ a b, x = [a, b] ∧ law F.family d = (F.vals a b).map some := by
  obtain ⟨k1, k2, k3⟩ := hk
  have two : ∀ a c : String, kvs.map Prod.fst = [a, c] → ∃ v w, kvs = [(a, v), (c, w)] := by
    intro a c h
    match kvs, h with
    | [(a', v), (c', w)], h =>
      simp only [List.map_cons, List.map_nil, List.cons.injEq, and_true] at h
      obtain ⟨rfl, rfl⟩ := h
      exact ⟨v, w, rfl⟩
  have three : ∀ a c e : String, kvs.map Prod.fst = [a, c, e] → ∃ v w z, kvs = [(a, v), (c, w), (e, z)] := by
    intro a c e h
    match kvs, h with
    | [(a', v), (c', w), (e', z)], h =>
      simp only [List.map_cons, List.map_nil, List.cons.injEq, and_true] at h
      obtain ⟨rfl, rfl, rfl⟩ := h
      exact ⟨v, w, z, rfl⟩
  cases F <;>
    simp [construct, CountPair.family, CountPair.given, parametrize, nbParam, zinbParam, simpleParam, simpleFam, anyNotNone,
      allNotNone, blank, Obj.setAll, Obj.set, Except.ok_bind', Except.pure_eq] at ho <;>
    subst ho <;> dsimp only at k1 k2 k3
  case negativeBinomial =>
    obtain ⟨v, w, rfl⟩ := two _ _ k1
    simp [Function.update] at k3
    simp [construct, CountPair.family, parametrize, nbParam, nbUpdate, nbToNP, List.lookup, anyNotNone, blank, Obj.setAll,
      Obj.set, Except.ok_bind', Except.pure_eq] at hd
    subst hd
    exact ⟨v, w, k3.symm, by simp [law, lawAttrs, CountPair.family, CountPair.vals, Function.update]⟩
  case ziPoisson =>
    obtain ⟨v, w, rfl⟩ := two _ _ k1
    simp [Function.update] at k3
    simp [construct, CountPair.family, parametrize, simpleParam, simpleFam, simpleUpdate, List.lookup, allNotNone, blank,
      Obj.setAll, Obj.set, Except.ok_bind', Except.pure_eq] at hd
    subst hd
    exact ⟨v, w, k3.symm, by simp [law, lawAttrs, CountPair.family, CountPair.vals, Obj.setAll, Obj.set, Function.update]⟩
  case betaBinomial n =>
    obtain ⟨v, w, z, rfl⟩ := three _ _ _ k1
    have e := k2 ("n", z) (by simp) n (by simp [Function.update])
    simp [Function.update] at k3
    simp only at e
    subst e
    simp [construct, CountPair.family, parametrize, simpleParam, simpleFam, simpleUpdate, List.lookup, allNotNone, blank,
      Obj.setAll, Obj.set, Except.ok_bind', Except.pure_eq] at hd
    subst hd
    exact ⟨v, w, k3.symm, by
      simp [law, lawAttrs, CountPair.family, CountPair.vals, Obj.setAll, Obj.set, Function.update, int64_nat]⟩
  case ziBinomial n =>
    obtain ⟨v, w, z, rfl⟩ := three _ _ _ k1
    have e := k2 ("n", w) (by simp) n (by simp [Function.update])
    simp [Function.update] at k3
    simp only at e
    subst e
    simp [construct, CountPair.family, parametrize, simpleParam, simpleFam, simpleUpdate, List.lookup, allNotNone, blank,
      Obj.setAll, Obj.set, Except.ok_bind', Except.pure_eq] at hd
    subst hd
    exact ⟨v, z, k3.symm, by
      simp [law, lawAttrs, CountPair.family, CountPair.vals, Obj.setAll, Obj.set, Function.update, int64_nat]⟩
  case ziNegativeBinomial c =>
    obtain ⟨v, w, z, rfl⟩ := three _ _ _ k1
    have e := k2 ("alpha", z) (by simp) c (by simp [Function.update])
    simp [Function.update] at k3
    simp only at e
    subst e
    simp [construct, CountPair.family, parametrize, zinbParam, zinbUpdate, nbToNP, List.lookup, anyNotNone, blank, Obj.setAll,
      Obj.set, Except.ok_bind', Except.pure_eq] at hd
    subst hd
    exact ⟨v, w, k3.symm, by simp [law, lawAttrs, CountPair.family, CountPair.vals, Function.update]⟩

private theorem cf_free (F : CountPair) (o : Obj) (ho : construct F.family F.given = .ok o) :
    freeBounds o F.box = F.free := by
  cases F <;>
    simp [construct, CountPair.family, CountPair.given, parametrize, nbParam, zinbParam, simpleParam, simpleFam, anyNotNone,
      allNotNone, blank, Obj.setAll, Obj.set, Except.ok_bind', Except.pure_eq] at ho <;>
    subst ho <;>
    simp [freeBounds, getFixedParams, splitStep, Function.update, List.zipIdx, CountPair.box, CountPair.free]

private theorem cf_inbox (F : CountPair) (a b : ℝ) (h : InBox F.free [a, b]) : F.Adm a b := by
  have hep := ce
  obtain ⟨-, h⟩ := h
  have h0 := h 0 (by simp) (by cases F <;> simp [CountPair.free])
  have h1 := h 1 (by simp) (by cases F <;> simp [CountPair.free])
  cases F <;> simp [CountPair.free] at h0 h1 <;> simp only [CountPair.Adm]
  case negativeBinomial => exact ⟨by linarith, by linarith⟩
  case ziPoisson =>
    have : a ≤ 1 - eps := by exact_mod_cast h0.2
    exact ⟨⟨by linarith [h0.1], by linarith⟩, by linarith⟩
  case betaBinomial n => exact ⟨by linarith, by linarith⟩
  case ziBinomial n =>
    have : a ≤ 1 - eps := by exact_mod_cast h0.2
    have : b ≤ 1 - eps := by exact_mod_cast h1.2
    exact ⟨⟨by linarith [h0.1], by linarith⟩, by linarith [h1.1], by linarith⟩
  case ziNegativeBinomial c =>
    have : a ≤ 1 - eps := by exact_mod_cast h0.2
    exact ⟨⟨by linarith [h0.1], by linarith⟩, by linarith⟩

private theorem cf_choice (F : CountPair) (o : Obj) (ho : construct F.family F.given = .ok o) (v w : ℝ)
    (hin : InBox F.free [v, w]) :
    ∃ d, Choice F.family o (freeBounds o F.box) d ∧ law F.family d = (F.vals v w).map some := by
  rw [cf_free F o ho]
  have main : ∀ a c : String, a ≠ c → o.names = [a, c] → o.attr a = none → o.attr c = none →
      (∃ d, construct F.family (fun k => if k = a then some v else if k = c then some w else none) = .ok d ∧
        law F.family d = (F.vals v w).map some) →
      ∃ d, Choice F.family o F.free d ∧ law F.family d = (F.vals v w).map some := by
    rintro a c hac hn ha hc ⟨d, hd, hl⟩
    refine ⟨d, ⟨_, hd, ?_, ?_, ?_⟩, hl⟩
    · intro k
      rw [hn]
      simp only [List.mem_cons, List.not_mem_nil, or_false]
      split_ifs <;> simp_all
    · intro k hk v hv
      rw [hn] at hk
      simp only [List.mem_cons, List.not_mem_nil, or_false] at hk
      rcases hk with rfl | rfl <;> simp_all
    · rw [hn]
      simpa [ha, hc, hac.symm] using hin
  have main3 : ∀ (a b c : String) (n : ℝ) (i : Fin 3), a ≠ b → a ≠ c → b ≠ c → o.names = [a, b, c] →
      (i = 2 ∧ o.attr a = none ∧ o.attr b = none ∧ o.attr c = some n ∨
        i = 1 ∧ o.attr a = none ∧ o.attr b = some n ∧ o.attr c = none) →
      (∃ d, construct F.family (fun k => if k = a then some v else if k = b then some (if i = 1 then n else w) else
        if k = c then some (if i = 1 then w else n) else none) = .ok d ∧ law F.family d = (F.vals v w).map some) →
      ∃ d, Choice F.family o F.free d ∧ law F.family d = (F.vals v w).map some := by
    rintro a b c n i hab hac hbc hn hi ⟨d, hd, hl⟩
    refine ⟨d, ⟨_, hd, ?_, ?_, ?_⟩, hl⟩
    · intro k
      rw [hn]
      simp only [List.mem_cons, List.not_mem_nil, or_false]
      split_ifs <;> simp_all
    · intro k hk v hv
      rw [hn] at hk
      simp only [List.mem_cons, List.not_mem_nil, or_false] at hk
      rcases hi with ⟨rfl, h1, h2, h3⟩ | ⟨rfl, h1, h2, h3⟩ <;> rcases hk with rfl | rfl | rfl <;>
        simp_all [Ne.symm hab, Ne.symm hac, Ne.symm hbc, eq_comm]
    · rw [hn]
      rcases hi with ⟨rfl, h1, h2, h3⟩ | ⟨rfl, h1, h2, h3⟩ <;>
        simpa [h1, h2, h3, hab.symm, hac.symm, hbc.symm] using hin
  cases F <;>
    simp [construct, CountPair.family, CountPair.given, parametrize, nbParam, zinbParam, simpleParam, simpleFam, anyNotNone,
      allNotNone, blank, Obj.setAll, Obj.set, Except.ok_bind', Except.pure_eq] at ho <;>
    subst ho
  case negativeBinomial =>
    refine main "mu" "alpha" (by decide) rfl (by simp [Function.update]) (by simp [Function.update]) ⟨_, by
      simp [construct, CountPair.family, parametrize, nbParam, anyNotNone, Except.ok_bind', Except.pure_eq]; rfl, by
      simp [law, lawAttrs, CountPair.family, CountPair.vals, nbUpdate, nbToNP, Obj.setAll, Obj.set, Function.update]⟩
  case ziPoisson =>
    refine main "psi" "mu" (by decide) rfl (by simp [Function.update]) (by simp [Function.update]) ⟨_, by
      simp [construct, CountPair.family, parametrize, simpleParam, simpleFam, simpleUpdate, allNotNone, Except.ok_bind',
        Except.pure_eq]; rfl, by
      simp [law, lawAttrs, CountPair.family, CountPair.vals, Obj.setAll, Obj.set, Function.update]⟩
  case betaBinomial n =>
    refine main3 "alpha" "beta" "n" n 2 (by decide) (by decide) (by decide) rfl (.inl ⟨rfl, by simp [Function.update],
      by simp [Function.update], by simp [Function.update]⟩) ⟨_, by
      simp [construct, CountPair.family, parametrize, simpleParam, simpleFam, simpleUpdate, allNotNone, Except.ok_bind',
        Except.pure_eq]; rfl, by
      simp [law, lawAttrs, CountPair.family, CountPair.vals, Obj.setAll, Obj.set, Function.update, int64_nat]⟩
  case ziBinomial n =>
    refine main3 "psi" "n" "p" n 1 (by decide) (by decide) (by decide) rfl (.inr ⟨rfl, by simp [Function.update],
      by simp [Function.update], by simp [Function.update]⟩) ⟨_, by
      simp [construct, CountPair.family, parametrize, simpleParam, simpleFam, simpleUpdate, allNotNone, Except.ok_bind',
        Except.pure_eq]; rfl, by
      simp [law, lawAttrs, CountPair.family, CountPair.vals, Obj.setAll, Obj.set, Function.update, int64_nat]⟩
  case ziNegativeBinomial c =>
    refine main3 "psi" "mu" "alpha" c 2 (by decide) (by decide) (by decide) rfl (.inl ⟨rfl, by simp [Function.update],
      by simp [Function.update], by simp [Function.update]⟩) ⟨_, by
      simp [construct, CountPair.family, parametrize, zinbParam, anyNotNone, Except.ok_bind', Except.pure_eq]; rfl, by
      simp [law, lawAttrs, CountPair.family, CountPair.vals, zinbUpdate, nbToNP, Obj.setAll, Obj.set, Function.update]⟩

private theorem cf_scaled (F : CountPair) (names : List String) : ScaledNames F.family names := by
  intro h; cases F <;> simp [CountPair.family] at h

/-- **C134**: match_moments for the count families.  With an optimiser that finds the minimum: if the mean and the variance asked
for can be had and the parameters written out are within the bounds, the distribution returned has these parameters; if they
cannot be had, the distribution returned does not have them. -/
theorem count_match (F : CountPair) (hF : F.Ok) (o o1 : Obj) (ho : construct F.family F.given = .ok o)
    (moments : List (Option ℝ) → List ℝ) (hlen : ∀ l, (moments l).length = 2)
    (hrep : ∀ a b, F.Adm a b → ∀ m v, HasMoments (ofCounts (F.pmf a b)) m v → moments ((F.vals a b).map some) = [m, v])
    (m v : ℝ) (opt : Optimiser) (G : List ℝ → Except Err (List ℝ))
    (hG : IsObjective F.family o.names o.attr
      (fun l => [(((moments l).zip [m, v]).map fun vt => (vt.1 - vt.2) ^ 2).sum]) G)
    (hfind : Finds opt G (startAt o o1) (freeBounds o F.box)) :
    Gives (optimizeMoments opt F.family moments [m, v] o.names F.box (getFixedParams o).1 (getFixedParams o).2 o1)
      fun r => ∃ a b, law F.family r.2 = (F.vals a b).map some ∧ F.Adm a b ∧
        (F.Reach m v → InBox F.free [(F.fitted m v).1, (F.fitted m v).2] → (a, b) = F.fitted m v) ∧
        (¬ F.Reach m v → ¬ HasMoments (ofCounts (F.pmf a b)) m v) := by
  have he : momentsResidual moments [m, v] =
      fun l => [(((moments l).zip [m, v]).map fun vt => (vt.1 - vt.2) ^ 2).sum] := by
    funext l
    unfold momentsResidual
    rw [← List.map_uncurry_zip_eq_zipWith]
    rfl
  obtain ⟨x, o', e1, e2, ⟨kvs, d, e3, e4, e5, -⟩, e6⟩ := fit_best opt F.family o o1 (cf_scaled F _) F.box _ G hG hfind
  obtain ⟨a, b, rfl, e7⟩ := cf_filled F o d ho x kvs e3 e4
  rw [cf_free F o ho] at e2
  have hg := cf_inbox F a b e2
  refine ⟨(_, o'), by unfold optimizeMoments; rw [he]; exact e1, a, b, e5.trans e7, hg, fun hr hin => ?_,
    fun hr hm => hr ((count_iff F hF a b m v hg).1 hm).1⟩
  have a1 := cf_inbox F _ _ hin
  obtain ⟨d', hd', hl'⟩ := cf_choice F o ho _ _ hin
  obtain ⟨r, hr', r1⟩ := moments_exact opt F.family moments [m, v] hlen o o1 (cf_scaled F _) F.box G hG hfind d' hd'
    (by rw [hl']; exact hrep _ _ a1 _ _ ((count_iff F hF _ _ m v a1).2 ⟨hr, rfl⟩))
  have : r = ([a, b], o') := by
    unfold optimizeMoments at hr'
    rw [he, e1] at hr'
    simpa using hr'.symm
  subst this
  dsimp only at r1
  rw [e5, e7] at r1
  obtain ⟨m', v', hm⟩ : ∃ m' v', HasMoments (ofCounts (F.pmf a b)) m' v' := count_has F hF a b hg
  have := hrep _ _ hg _ _ hm
  rw [r1] at this
  simp only [List.cons.injEq, and_true] at this
  rw [← this.1, ← this.2] at hm
  exact ((count_iff F hF a b m v hg).1 hm).2

/-- **C134**: the moment fit used for start values (`optimize_mean_sigma`), with an optimiser that finds the minimum, has the
mean and standard deviation asked for whenever some distribution of the family within the bounds has them; it then returns
that distribution. -/
theorem count_fit (F : CountPair) (hF : F.Ok) (o o1 : Obj) (ho : construct F.family F.given = .ok o)
    (meanStd : List (Option ℝ) → ℝ × ℝ)
    (hrep : ∀ a b, F.Adm a b → ∀ m v, HasMoments (ofCounts (F.pmf a b)) m v → meanStd ((F.vals a b).map some) = (m, √v))
    (mean sigma : ℝ) (start : List ℝ) (hst : update F.family start o = .ok o1) (hn : o1.names = o.names)
    (opt : Optimiser) (G : List ℝ → Except Err (List ℝ))
    (hG : IsObjective F.family o.names o.attr (fun l => [|(meanStd l).1 - mean| + |(meanStd l).2 - sigma|]) G)
    (hfind : Finds opt G (startAt o o1) (freeBounds o F.box)) (hs : 0 < sigma) (hr : F.Reach mean (sigma ^ 2))
    (hin : InBox F.free [(F.fitted mean (sigma ^ 2)).1, (F.fitted mean (sigma ^ 2)).2]) :
    Gives (optimizeMeanSigma opt F.family meanStd mean sigma start F.box o) fun r =>
      law F.family r.2 = (F.vals (F.fitted mean (sigma ^ 2)).1 (F.fitted mean (sigma ^ 2)).2).map some := by
  have a1 := cf_inbox F _ _ hin
  obtain ⟨d', hd', hl'⟩ := cf_choice F o ho _ _ hin
  have hm0 := (count_iff F hF _ _ mean (sigma ^ 2) a1).2 ⟨hr, rfl⟩
  obtain ⟨r, hr', r1⟩ := mean_sigma_exact opt F.family meanStd mean sigma start o o1 (cf_scaled F _) F.box hst hn G hG hfind d' hd'
    (by rw [hl', hrep _ _ a1 _ _ hm0, Real.sqrt_sq hs.le])
  refine ⟨r, hr', ?_⟩
  obtain ⟨x, o', e1, e2, ⟨kvs, d, e3, e4, e5, -⟩, e6⟩ := fit_best opt F.family o o1 (cf_scaled F _) F.box _ G hG hfind
  obtain ⟨a, b, rfl, e7⟩ := cf_filled F o d ho x kvs e3 e4
  rw [cf_free F o ho] at e2
  have hg := cf_inbox F a b e2
  have : r = ([a, b], o') := by
    unfold optimizeMeanSigma at hr'
    dsimp only at hr'
    rw [hst] at hr'
    simp only [Except.ok_bind'] at hr'
    rw [hn, show meanSigmaResidual meanStd mean sigma =
      fun l => [|(meanStd l).1 - mean| + |(meanStd l).2 - sigma|] from rfl, e1] at hr'
    simpa using hr'.symm
  subst this
  dsimp only at r1 ⊢
  rw [e5, e7] at r1 ⊢
  obtain ⟨m', v', hm⟩ := count_has F hF a b hg
  have h1 := hrep _ _ hg _ _ hm
  rw [r1] at h1
  obtain ⟨q1, q2⟩ := Prod.mk.inj h1
  have hv : v' = sigma ^ 2 := by
    rw [q2, Real.sq_sqrt]
    rw [← hm.var]
    exact integral_nonneg fun x => sq_nonneg _
  rw [← q1, hv] at hm
  have := ((count_iff F hF a b mean (sigma ^ 2) hg).1 hm).2
  rw [← this]

open Classical in
/-- the moments of the documented law, read off the parameters -/
private noncomputable def countTable (F : CountPair) (l : List (Option ℝ)) : ℝ × ℝ :=
  if h : ∃ q : ℝ × ℝ, ∃ a b, F.Adm a b ∧ l = (F.vals a b).map some ∧ HasMoments (ofCounts (F.pmf a b)) q.1 q.2
  then h.choose else 0

private theorem vals_inj (F : CountPair) (a b a' b' : ℝ) (h : (F.vals a b).map some = (F.vals a' b').map some) :
    a = a' ∧ b = b' := by
  cases F <;> simp [CountPair.vals] at h <;> exact ⟨h.1, h.2⟩

private theorem countTable_eq (F : CountPair) (a b m v : ℝ) (h : F.Adm a b) (hm : HasMoments (ofCounts (F.pmf a b)) m v) :
    countTable F ((F.vals a b).map some) = (m, v) := by
  unfold countTable
  have hex : ∃ q : ℝ × ℝ, ∃ a' b', F.Adm a' b' ∧ (F.vals a b).map some = (F.vals a' b').map some ∧
      HasMoments (ofCounts (F.pmf a' b')) q.1 q.2 := ⟨(m, v), a, b, h, rfl, hm⟩
  rw [dif_pos hex]
  obtain ⟨a', b', -, e, h'⟩ := hex.choose_spec
  obtain ⟨rfl, rfl⟩ := vals_inj F _ _ _ _ e
  have e1 : hex.choose.1 = m := by rw [← h'.mean, hm.mean]
  have e2 : hex.choose.2 = v := by rw [← h'.var, ← hm.var, ← h'.mean, hm.mean]
  exact Prod.ext e1 e2

/-- a NegativeBinomial with mean 10 and variance 15 has `alpha` 20 -/
example : ∃ (o : Obj) (moments : List (Option ℝ) → List ℝ) (opt : Optimiser) (G : List ℝ → Except Err (List ℝ)),
    construct .negativeBinomial CountPair.negativeBinomial.given = .ok o ∧ (∀ l, (moments l).length = 2) ∧
    (∀ a b, CountPair.negativeBinomial.Adm a b → ∀ m v, HasMoments (ofCounts (negBinomialPmf a b)) m v →
      moments ([a, b].map some) = [m, v]) ∧
    IsObjective .negativeBinomial o.names o.attr
      (fun l => [(((moments l).zip [10, 15]).map fun vt => (vt.1 - vt.2) ^ 2).sum]) G ∧
    Finds opt G (startAt o o) (freeBounds o CountPair.negativeBinomial.box) ∧ CountPair.negativeBinomial.Reach 10 15 ∧
    CountPair.negativeBinomial.fitted 10 15 = (10, 20) ∧ InBox CountPair.negativeBinomial.free [10, 20] := by
  obtain ⟨o, ho⟩ : ∃ o, construct .negativeBinomial CountPair.negativeBinomial.given = .ok o := ⟨_, rfl⟩
  have hbox := cf_free .negativeBinomial o ho
  have he := ce
  have hin : InBox CountPair.negativeBinomial.free [10, 20] := by
    refine ⟨rfl, fun i hi _ => ?_⟩
    simp only [List.length_cons, List.length_nil] at hi
    interval_cases i <;> simp [CountPair.free] <;> linarith
  have hm : countTable .negativeBinomial [some 10, some 20] = (10, 15) :=
    countTable_eq .negativeBinomial 10 20 10 15 ⟨by norm_num, by norm_num⟩ (by
      have := (negative_binomial_documented 10 20 (by norm_num) (by norm_num)).1
      norm_num at this
      exact this)
  set mo : List (Option ℝ) → List ℝ := fun l => [(countTable .negativeBinomial l).1, (countTable .negativeBinomial l).2] with hmo
  set res : List (Option ℝ) → List ℝ := fun l => [(((mo l).zip [10, 15]).map fun vt => (vt.1 - vt.2) ^ 2).sum] with hres
  set G : List ℝ → Except Err (List ℝ) := fun x => if x.length = 2 then
    .ok (res (x.map some)) else .error .valueError with hG
  refine ⟨o, mo, fun _ _ => .ok (.ask [1, 1] fun _ => .stop [10, 20]), G, ho, fun _ => rfl, ?_, ⟨?_, ?_⟩, ?_,
    by simp only [CountPair.Reach]; norm_num, by simp only [CountPair.fitted]; norm_num, hin⟩
  · intro a b hab m v h
    have := countTable_eq .negativeBinomial a b m v hab h
    simp only [hmo]
    rw [show [a, b].map some = (CountPair.negativeBinomial.vals a b).map some from rfl, this]
  · intro cand kvs hk
    simp [construct, CountPair.given, parametrize, nbParam, anyNotNone, blank,
      Obj.setAll, Obj.set, Except.ok_bind', Except.pure_eq] at ho
    subst ho
    obtain ⟨k1, k2, k3⟩ := hk
    match kvs, k1, k2, k3 with
    | [(a, m), (b, n)], k1, k2, k3 =>
      simp only [List.map_cons, List.map_nil, List.cons.injEq, and_true] at k1
      obtain ⟨rfl, rfl⟩ := k1
      simp [Function.update] at k3
      subst k3
      simp [hG, construct, parametrize, nbParam, nbUpdate, nbToNP, anyNotNone, blank, Obj.setAll, Obj.set,
        List.lookup, Except.map, law, lawAttrs, Function.update, hres, Except.ok_bind', Except.pure_eq]
  · intro cand hc
    simp [construct, CountPair.given, parametrize, nbParam, anyNotNone, blank,
      Obj.setAll, Obj.set, Except.ok_bind', Except.pure_eq] at ho
    subst ho
    simp [Function.update] at hc
    simp [hG, hc]
  · rw [hbox]
    have hzero : res [some 10, some 20] = [0] := by
      simp only [hres, hmo, hm]
      norm_num
    refine ⟨_, rfl, [10, 20], [0], by simp [answer, hG], hin, ?_, ?_⟩
    · rw [← hzero]; simp [hG]
    · intro y _ r' _
      have : 0 ≤ cost r' := List.sum_nonneg (by
        intro a ha
        obtain ⟨b, -, rfl⟩ := List.mem_map.1 ha
        positivity)
      simpa [cost] using this

/-- a ZeroInflatedPoisson with mean 2 and variance 4: `psi` 2/3 and `mu` 3; with one of two trials a BetaBinomial of variance
3/4 -/
example : CountPair.ziPoisson.Reach 2 4 ∧ CountPair.ziPoisson.fitted 2 4 = (2 / 3, 3) ∧
    (CountPair.betaBinomial 2).Reach 1 (3 / 4) ∧ (CountPair.betaBinomial 2).fitted 1 (3 / 4) = (1 / 2, 1 / 2) ∧
    ¬ CountPair.negativeBinomial.Reach 4 2 := by
  simp only [CountPair.Reach, CountPair.fitted]
  norm_num

end Verif.Props
