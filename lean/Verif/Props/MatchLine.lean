import Verif.Lemmas.MatchLine
import Verif.Props.LocScale
import Verif.Props.HalfScale

/-!
# C123: what match_quantiles returns for families with a location and a scale

The families of C122 and, with a scale only, those of C117.
-/

namespace Verif.Props
open MeasureTheory Verif Verif.Spec Verif.Param Verif.Optim Verif.NumFit Verif.Lemmas.MatchLine

private theorem shift_filled (F : ShiftFam) (o d : Obj) (ho : construct F.family F.given = .ok o) (x : List ℝ)
    (kvs : List (String × ℝ)) (hk : Filled o.names o.attr x kvs) (hd : construct F.family (fun k => kvs.lookup k) = .ok d) :
    ∃ m s, x = [m, s] ∧ law F.family d = F.values m s := by
  have two : ∀ a c : String, kvs.map Prod.fst = [a, c] → ∃ v w, kvs = [(a, v), (c, w)] := by
    intro a c h
    match kvs, h with
    | [(a', v), (c', w)], h =>
      simp only [List.map_cons, List.map_nil, List.cons.injEq, and_true] at h
      obtain ⟨rfl, rfl⟩ := h
      exact ⟨v, w, rfl⟩
  have three : ∀ a c e : String, kvs.map Prod.fst = [a, c, e] → ∃ v w z, kvs = [(a, v), (c, w), (e, z)] := by
    intro a c e h
    match kvs, h with
    | [(a', v), (c', w), (e', z)], h =>
      simp only [List.map_cons, List.map_nil, List.cons.injEq, and_true] at h
      obtain ⟨rfl, rfl, rfl⟩ := h
      exact ⟨v, w, z, rfl⟩
  have four : ∀ a c e f : String, kvs.map Prod.fst = [a, c, e, f] → ∃ v w z y, kvs = [(a, v), (c, w), (e, z), (f, y)] := by
    intro a c e f h
    match kvs, h with
    | [(a', v), (c', w), (e', z), (f', y)], h =>
      simp only [List.map_cons, List.map_nil, List.cons.injEq, and_true] at h
      obtain ⟨rfl, rfl, rfl, rfl⟩ := h
      exact ⟨v, w, z, y, rfl⟩
  cases F with
  | peak F => exact peak_filled F o d ho x kvs hk hd
  | asymmetricLaplace n =>
    obtain ⟨k1, k2, k3⟩ := hk
    simp [construct, ShiftFam.family, ShiftFam.given, parametrize, asymLaplaceParam, allNotNone, blank, Obj.setAll, Obj.set,
      Except.ok_bind', Except.pure_eq] at ho
    subst ho
    dsimp only at k1 k2 k3
    obtain ⟨v, w, z, rfl⟩ := three _ _ _ k1
    have e := k2 ("kappa", v) (by simp) n (by simp [Function.update])
    simp [Function.update] at k3
    simp only at e
    subst e
    simp [construct, ShiftFam.family, parametrize, asymLaplaceParam, asymLaplaceUpdate, List.lookup, allNotNone, blank,
      Obj.setAll, Obj.set, Except.ok_bind', Except.pure_eq] at hd
    subst hd
    exact ⟨w, z, k3.symm, by simp [law, lawAttrs, ShiftFam.family, ShiftFam.values, Obj.setAll, Obj.set, Function.update]⟩
  | skewNormal n =>
    obtain ⟨k1, k2, k3⟩ := hk
    simp [construct, ShiftFam.family, ShiftFam.given, parametrize, skewNormalParam, allNotNone, blank, Obj.setAll, Obj.set,
      Except.ok_bind', Except.pure_eq] at ho
    subst ho
    dsimp only at k1 k2 k3
    obtain ⟨w, z, v, rfl⟩ := three _ _ _ k1
    have e := k2 ("alpha", v) (by simp) n (by simp [Function.update])
    simp [Function.update] at k3
    simp only at e
    subst e
    simp [construct, ShiftFam.family, parametrize, skewNormalParam, skewNormalUpdate, List.lookup, allNotNone, blank,
      Obj.setAll, Obj.set, Except.ok_bind', Except.pure_eq] at hd
    subst hd
    exact ⟨w, z, k3.symm, by simp [law, lawAttrs, ShiftFam.family, ShiftFam.values, Obj.setAll, Obj.set, Function.update]⟩
  | skewStudentT a b =>
    obtain ⟨k1, k2, k3⟩ := hk
    simp [construct, ShiftFam.family, ShiftFam.given, parametrize, skewStudentTParam, allNotNone, blank, Obj.setAll, Obj.set,
      Except.ok_bind', Except.pure_eq] at ho
    subst ho
    dsimp only at k1 k2 k3
    obtain ⟨w, z, v, y, rfl⟩ := four _ _ _ _ k1
    have e := k2 ("a", v) (by simp) a (by simp [Function.update])
    have e' := k2 ("b", y) (by simp) b (by simp [Function.update])
    simp [Function.update] at k3
    simp only at e e'
    subst e e'
    simp [construct, ShiftFam.family, parametrize, skewStudentTParam, skewStudentTUpdate, List.lookup, allNotNone, blank,
      Obj.setAll, Obj.set, Except.ok_bind', Except.pure_eq] at hd
    subst hd
    exact ⟨w, z, k3.symm, by simp [law, lawAttrs, ShiftFam.family, ShiftFam.values, Obj.setAll, Obj.set, Function.update]⟩
  | _ =>
    obtain ⟨k1, k2, k3⟩ := hk
    simp [construct, ShiftFam.family, ShiftFam.given, parametrize, simpleParam, simpleFam, allNotNone, blank, Obj.setAll,
      Obj.set, Except.ok_bind', Except.pure_eq] at ho
    subst ho
    dsimp only at k1 k2 k3
    obtain ⟨v, w, rfl⟩ := two _ _ k1
    simp [Function.update] at k3
    simp [construct, ShiftFam.family, parametrize, simpleParam, simpleFam, simpleUpdate, List.lookup,
      allNotNone, blank, Obj.setAll, Obj.set, Except.ok_bind', Except.pure_eq] at hd
    subst hd
    exact ⟨v, w, k3.symm, by simp [law, lawAttrs, ShiftFam.family, ShiftFam.values, simpleFam, Obj.setAll, Obj.set,
      Function.update]⟩

private theorem shift_free (F : ShiftFam) (o : Obj) (ho : construct F.family F.given = .ok o) :
    freeBounds o F.box = [(⊥, ⊤), (((eps : ℝ) : EReal), ⊤)] := by
  rcases F with F | _
  · exact peak_free F o ho
  all_goals
    simp [construct, ShiftFam.family, ShiftFam.given, parametrize, asymLaplaceParam, simpleParam, simpleFam,
      skewNormalParam, skewStudentTParam, allNotNone, blank, Obj.setAll, Obj.set, Except.ok_bind', Except.pure_eq] at ho
    subst ho
    simp [freeBounds, getFixedParams, splitStep, Function.update, List.zipIdx, ShiftFam.box]

private theorem shift_choice (F : ShiftFam) (o : Obj) (ho : construct F.family F.given = .ok o) (m s : ℝ) (hs : eps ≤ s) :
    ∃ d, Choice F.family o (freeBounds o F.box) d ∧ law F.family d = F.values m s := by
  have hin := (loc_scale_in m s).2 hs
  cases F with
  | peak F => exact peak_choice F o ho m s hs
  | asymmetricLaplace n =>
    rw [shift_free _ o ho]
    simp [construct, ShiftFam.family, ShiftFam.given, parametrize, asymLaplaceParam, allNotNone, blank, Obj.setAll, Obj.set,
      Except.ok_bind', Except.pure_eq] at ho
    subst ho
    refine ⟨_, ⟨fun k => if k = "kappa" then some n else if k = "mu" then some m else if k = "b" then some s else none,
      by simp [construct, ShiftFam.family, parametrize, asymLaplaceParam, asymLaplaceUpdate, allNotNone, Except.ok_bind',
        Except.pure_eq]; rfl, ?_, ?_, ?_⟩, ?_⟩
    · intro k
      simp only [List.mem_cons, List.not_mem_nil, or_false]
      split_ifs <;> simp_all
    · intro k hk v hv
      simp only [List.mem_cons, List.not_mem_nil, or_false] at hk
      rcases hk with rfl | rfl | rfl <;> simp [Function.update] at hv ⊢
      exact hv
    · simpa [Function.update] using hin
    · simp [law, lawAttrs, ShiftFam.family, ShiftFam.values, Obj.setAll, Obj.set, Function.update]
  | skewNormal n =>
    rw [shift_free _ o ho]
    simp [construct, ShiftFam.family, ShiftFam.given, parametrize, skewNormalParam, allNotNone, blank, Obj.setAll, Obj.set,
      Except.ok_bind', Except.pure_eq] at ho
    subst ho
    refine ⟨_, ⟨fun k => if k = "mu" then some m else if k = "sigma" then some s else if k = "alpha" then some n else none,
      by simp [construct, ShiftFam.family, parametrize, skewNormalParam, skewNormalUpdate, allNotNone, Except.ok_bind',
        Except.pure_eq]; rfl, ?_, ?_, ?_⟩, ?_⟩
    · intro k
      simp only [List.mem_cons, List.not_mem_nil, or_false]
      split_ifs <;> simp_all
    · intro k hk v hv
      simp only [List.mem_cons, List.not_mem_nil, or_false] at hk
      rcases hk with rfl | rfl | rfl <;> simp [Function.update] at hv ⊢ <;> exact hv
    · simpa [Function.update] using hin
    · simp [law, lawAttrs, ShiftFam.family, ShiftFam.values, Obj.setAll, Obj.set, Function.update]
  | skewStudentT a b =>
    rw [shift_free _ o ho]
    simp [construct, ShiftFam.family, ShiftFam.given, parametrize, skewStudentTParam, allNotNone, blank, Obj.setAll, Obj.set,
      Except.ok_bind', Except.pure_eq] at ho
    subst ho
    refine ⟨_, ⟨fun k => if k = "mu" then some m else if k = "sigma" then some s else if k = "a" then some a else if k = "b" then some b else none,
      by simp [construct, ShiftFam.family, parametrize, skewStudentTParam, skewStudentTUpdate, allNotNone, Except.ok_bind',
        Except.pure_eq]; rfl, ?_, ?_, ?_⟩, ?_⟩
    · intro k
      simp only [List.mem_cons, List.not_mem_nil, or_false]
      split_ifs <;> simp_all
    · intro k hk v hv
      simp only [List.mem_cons, List.not_mem_nil, or_false] at hk
      rcases hk with rfl | rfl | rfl | rfl <;> simp [Function.update] at hv ⊢ <;> exact hv
    · simpa [Function.update] using hin
    · simp [law, lawAttrs, ShiftFam.family, ShiftFam.values, Obj.setAll, Obj.set, Function.update]
  | gumbel =>
    rw [shift_free _ o ho]
    simp [construct, ShiftFam.family, ShiftFam.given, parametrize, simpleParam, simpleFam,
      allNotNone, blank, Obj.setAll, Obj.set, Except.ok_bind', Except.pure_eq] at ho
    subst ho
    refine ⟨_, ⟨fun k => if k = "mu" then some m else if k = "beta" then some s else none,
      by simp [construct, ShiftFam.family, parametrize, simpleParam, simpleFam, simpleUpdate, allNotNone]; rfl, ?_, ?_, ?_⟩, ?_⟩
    · intro k
      simp only [List.mem_cons, List.not_mem_nil, or_false]
      split_ifs <;> simp_all
    · intro k hk v hv
      simp [Function.update] at hv
    · simpa [Function.update] using hin
    · simp [law, lawAttrs, ShiftFam.family, ShiftFam.values, simpleFam, Obj.setAll, Obj.set, Function.update]
  | moyal =>
    rw [shift_free _ o ho]
    simp [construct, ShiftFam.family, ShiftFam.given, parametrize, simpleParam, simpleFam,
      allNotNone, blank, Obj.setAll, Obj.set, Except.ok_bind', Except.pure_eq] at ho
    subst ho
    refine ⟨_, ⟨fun k => if k = "mu" then some m else if k = "sigma" then some s else none,
      by simp [construct, ShiftFam.family, parametrize, simpleParam, simpleFam, simpleUpdate, allNotNone]; rfl, ?_, ?_, ?_⟩, ?_⟩
    · intro k
      simp only [List.mem_cons, List.not_mem_nil, or_false]
      split_ifs <;> simp_all
    · intro k hk v hv
      simp [Function.update] at hv
    · simpa [Function.update] using hin
    · simp [law, lawAttrs, ShiftFam.family, ShiftFam.values, simpleFam, Obj.setAll, Obj.set, Function.update]

private theorem eps_above : (0 : ℝ) < eps := by unfold eps; positivity

/-- what `ppf` promises: the value up to which the distribution has the probability asked for -/
def Inverts (F : ShiftFam) (ppf : List (Option ℝ) → ℝ → ℝ) : Prop :=
  ∀ m s, 0 < s → ∀ q, 0 < q → q < 1 → (ofPdf (F.pdf m s)).real (Set.Iic (ppf (F.values m s) q)) = q

/-- **C123**: match_quantiles fits a line.  With an optimiser that finds the minimum, the scale of the distribution returned is
the slope of the least-squares line through the points with the quantiles of the standard distribution of the family and the
target values (or the smallest scale allowed, if that is larger), and its location is the one for which the line goes through
the average of the points. -/
theorem match_line (F : ShiftFam) (hF : F.Ok) (o o1 : Obj) (ho : construct F.family F.given = .ok o)
    (ppf : List (Option ℝ) → ℝ → ℝ) (hppf : Inverts F ppf) (qs target : List ℝ) (hlen : qs.length = target.length)
    (hq : ∀ q ∈ qs, 0 < q ∧ q < 1) (htwo : ∃ p ∈ qs, ∃ q ∈ qs, p < q) (opt : Optimiser) (G : List ℝ → Except Err (List ℝ))
    (hG : IsObjective F.family o.names o.attr
      (fun l => [(List.zipWith (fun q t => (ppf l q - t) ^ 2) qs target).sum]) G)
    (hfind : Finds opt G (startAt o o1) (freeBounds o F.box)) :
    Gives (optimizeQuantiles opt F.family ppf qs target o.names F.box (getFixedParams o).1 (getFixedParams o).2 o1) fun r =>
      ∃ m s, law F.family r.2 = F.values m s ∧ s = max eps (lineSlope (qs.map (ppf (F.values 0 1))) target) ∧
        m = meanOf target - s * meanOf (qs.map (ppf (F.values 0 1))) := by
  have hsc : ScaledNames F.family o.names := by
    intro h; rcases F with F | _
    · cases F <;> simp [ShiftFam.family, PeakFam.family] at h
    all_goals simp [ShiftFam.family] at h
  obtain ⟨x, o', e1, e2, ⟨kvs, d, e3, e4, e5, -⟩, e6⟩ := fit_best opt F.family o o1 hsc F.box _ G hG hfind
  obtain ⟨m, s, rfl, e7⟩ := shift_filled F o d ho x kvs e3 e4
  rw [shift_free F o ho, loc_scale_in] at e2
  refine ⟨(_, o'), e1, m, s, e5.trans e7, ?_⟩
  set zs := qs.map (ppf (F.values 0 1)) with hzs
  have hl : zs.length = target.length := by rw [hzs, List.length_map, hlen]
  have hsum : ∀ m s, 0 < s → (List.zipWith (fun q t => (ppf (F.values m s) q - t) ^ 2) qs target).sum =
      tot (zs.zip target) fun p => (m + s * p.1 - p.2) ^ 2 := by
    intro m s hs
    rw [← zip_tot hl fun a b => (m + s * a - b) ^ 2, hzs, List.zipWith_map_left]
    congr 1
    refine List.ext_getElem (by simp) fun i h1 h2 => ?_
    simp only [List.length_zipWith, lt_min_iff] at h1
    simp only [List.getElem_zipWith]
    obtain ⟨a, b⟩ := hq _ (List.getElem_mem h1.1)
    rw [quantile_member F hF m hs (hppf m s hs _ a b) (hppf 0 1 one_pos _ a b)]
  have hz : 0 < szz (zs.zip target) := by
    obtain ⟨p, hp, q, hq', hpq⟩ := htwo
    have hlt := (quantile_lt F hF (hppf 0 1 one_pos _ (hq p hp).1 (hq p hp).2)
      (hppf 0 1 one_pos _ (hq q hq').1 (hq q hq').2)).2 hpq
    have mem : ∀ p ∈ qs, ∃ t, (ppf (F.values 0 1) p, t) ∈ zs.zip target := by
      intro p hp
      obtain ⟨i, hi, rfl⟩ := List.getElem_of_mem hp
      refine ⟨target[i]'(by omega), ?_⟩
      rw [List.mem_iff_getElem]
      refine ⟨i, by simp [hl]; omega, by simp [hzs]⟩
    obtain ⟨t, ht⟩ := mem p hp
    obtain ⟨t', ht'⟩ := mem q hq'
    exact szz_pos _ _ _ ht ht' hlt.ne
  have hne : zs.zip target ≠ [] := by
    intro h
    rw [h] at hz
    simp [szz, tot] at hz
  have hbest := line_least _ hne hz eps m s e2
  rw [zip_slope hl, zip_tm hl, zip_zm hl] at hbest
  set k := max eps (lineSlope zs target) with hk
  have hk0 : eps ≤ k := le_max_left _ _
  obtain ⟨d', hd', hl'⟩ := shift_choice F o ho (meanOf target - k * meanOf zs) k hk0
  have := e6 d' hd'
  rw [e5, e7, hl'] at this
  simp only [cost, List.map_cons, List.map_nil, List.sum_cons, List.sum_nil, add_zero] at this
  rw [hsum _ _ (eps_above.trans_le e2), hsum _ _ (eps_above.trans_le hk0)] at this
  have h2 := (pow_le_pow_iff_left₀ (tot_nonneg _ _ fun p _ => sq_nonneg _) (tot_nonneg _ _ fun p _ => sq_nonneg _)
    two_ne_zero).1 this
  obtain ⟨a, b⟩ := hbest.2 h2
  exact ⟨a, by rw [b, a]⟩

/-- **C123**: matching the quantiles of a distribution of the same family gives back that distribution, whichever (at least
two) levels are matched. -/
theorem match_own (F : ShiftFam) (hF : F.Ok) (o o1 : Obj) (ho : construct F.family F.given = .ok o)
    (ppf : List (Option ℝ) → ℝ → ℝ) (hppf : Inverts F ppf) (qs : List ℝ)
    (hq : ∀ q ∈ qs, 0 < q ∧ q < 1) (htwo : ∃ p ∈ qs, ∃ q ∈ qs, p < q) (m0 s0 : ℝ) (hs0 : eps ≤ s0)
    (opt : Optimiser) (G : List ℝ → Except Err (List ℝ))
    (hG : IsObjective F.family o.names o.attr
      (fun l => [(List.zipWith (fun q t => (ppf l q - t) ^ 2) qs (qs.map (ppf (F.values m0 s0)))).sum]) G)
    (hfind : Finds opt G (startAt o o1) (freeBounds o F.box)) :
    Gives (optimizeQuantiles opt F.family ppf qs (qs.map (ppf (F.values m0 s0))) o.names F.box (getFixedParams o).1
      (getFixedParams o).2 o1) fun r => law F.family r.2 = F.values m0 s0 := by
  have hs : 0 < s0 := eps_above.trans_le hs0
  obtain ⟨r, hr, m, s, h1, h2, h3⟩ := match_line F hF o o1 ho ppf hppf qs _ (by simp) hq htwo opt G hG hfind
  refine ⟨r, hr, ?_⟩
  have ht : qs.map (ppf (F.values m0 s0)) = (qs.map (ppf (F.values 0 1))).map fun x => m0 + s0 * x := by
    rw [List.map_map]
    refine List.map_congr_left fun q h => ?_
    obtain ⟨a, b⟩ := hq q h
    exact quantile_member F hF m0 hs (hppf m0 s0 hs _ a b) (hppf 0 1 one_pos _ a b)
  have hne : qs.map (ppf (F.values 0 1)) ≠ [] := by
    obtain ⟨p, hp, -⟩ := htwo
    exact List.ne_nil_of_mem (List.mem_map_of_mem hp)
  have hz : 0 < spread (qs.map (ppf (F.values 0 1))) (qs.map (ppf (F.values 0 1))) := by
    obtain ⟨p, hp, q, hq', hpq⟩ := htwo
    have hlt := (quantile_lt F hF (hppf 0 1 one_pos _ (hq p hp).1 (hq p hp).2)
      (hppf 0 1 one_pos _ (hq q hq').1 (hq q hq').2)).2 hpq
    rw [← zip_szz rfl]
    have mem : ∀ p ∈ qs, (ppf (F.values 0 1) p, ppf (F.values 0 1) p) ∈
        (qs.map (ppf (F.values 0 1))).zip (qs.map (ppf (F.values 0 1))) := by
      intro p hp
      obtain ⟨i, hi, rfl⟩ := List.getElem_of_mem hp
      rw [List.mem_iff_getElem]
      exact ⟨i, by simpa using hi, by simp⟩
    exact szz_pos _ _ _ (mem p hp) (mem q hq') hlt.ne
  have hsl : lineSlope (qs.map (ppf (F.values 0 1))) (qs.map (ppf (F.values 0 1))) = 1 := div_self hz.ne'
  rw [ht, lineSlope_affine _ _ hne, hsl, mul_one, max_eq_right hs0] at h2
  rw [ht, meanOf_affine _ hne, h2] at h3
  refine h1.trans ?_
  rw [h2, h3]
  congr 1
  ring

/-- **C123**: the default levels and a symmetric family: the scale is the interquartile range over that of the standard
distribution, and the location is not the median but the average of the three target quartiles. -/
theorem match_default (F : PeakFam) (hF : F.Ok) (o o1 : Obj) (ho : construct F.family F.given = .ok o)
    (ppf : List (Option ℝ) → ℝ → ℝ) (hppf : Inverts (.peak F) ppf) (t1 t2 t3 : ℝ)
    (opt : Optimiser) (G : List ℝ → Except Err (List ℝ))
    (hG : IsObjective F.family o.names o.attr
      (fun l => [(List.zipWith (fun q t => (ppf l q - t) ^ 2) [1 / 4, 1 / 2, 3 / 4] [t1, t2, t3]).sum]) G)
    (hfind : Finds opt G (startAt o o1) (freeBounds o F.box)) :
    ∃ z, 0 < z ∧ (ofPdf (F.pdf 0 1)).real (Set.Iic z) = 3 / 4 ∧
    Gives (optimizeQuantiles opt F.family ppf [1 / 4, 1 / 2, 3 / 4] [t1, t2, t3] o.names F.box (getFixedParams o).1
      (getFixedParams o).2 o1) fun r =>
        law F.family r.2 = F.values ((t1 + t2 + t3) / 3) (max eps ((t3 - t1) / (2 * z))) := by
  have hg := Verif.LocScale.peak_fam F hF
  have cdf0 : ∀ x, (ofPdf (F.pdf 0 1)).real (Set.Iic x) = Verif.LocScale.upTo (F.pdf 0 1) x := by
    intro x
    have := cdf_member (.peak F) hF 0 one_pos x
    rwa [sub_zero, div_one] at this
  have hval : ∀ q, 0 < q → q < 1 → Verif.LocScale.upTo (F.pdf 0 1) (ppf (F.values 0 1) q) = q := by
    intro q a b
    rw [← cdf0]
    exact hppf 0 1 one_pos q a b
  have inj := (Verif.LocScale.upTo_mono hg).injective
  have h2 : ppf (F.values 0 1) (1 / 2) = 0 := inj (by rw [hval _ (by norm_num) (by norm_num), Verif.LocScale.upTo_zero hg])
  have h1 : ppf (F.values 0 1) (1 / 4) = -ppf (F.values 0 1) (3 / 4) := inj (by
    rw [Verif.LocScale.upTo_neg hg, hval _ (by norm_num) (by norm_num), hval _ (by norm_num) (by norm_num)]; norm_num)
  have h3 : 0 < ppf (F.values 0 1) (3 / 4) := by
    rw [← (Verif.LocScale.upTo_mono hg).lt_iff_lt, Verif.LocScale.upTo_zero hg, hval _ (by norm_num) (by norm_num)]
    norm_num
  refine ⟨ppf (F.values 0 1) (3 / 4), h3, hppf 0 1 one_pos _ (by norm_num) (by norm_num), ?_⟩
  obtain ⟨r, hr, m, s, a, b, c⟩ := match_line (.peak F) hF o o1 ho ppf hppf [1 / 4, 1 / 2, 3 / 4] [t1, t2, t3] rfl
    (by intro q hq; simp only [List.mem_cons, List.not_mem_nil, or_false] at hq; rcases hq with rfl | rfl | rfl <;> norm_num)
    ⟨1 / 4, by simp, 1 / 2, by simp, by norm_num⟩ opt G hG hfind
  refine ⟨r, hr, a.trans ?_⟩
  simp only [ShiftFam.values, List.map_cons, List.map_nil, h1, h2] at b c ⊢
  generalize ppf (F.values 0 1) (3 / 4) = z at *
  have e0 : meanOf [-z, 0, z] = 0 := by simp [meanOf]
  have e1 : lineSlope [-z, 0, z] [t1, t2, t3] = (t3 - t1) / (2 * z) := by
    unfold lineSlope spread
    rw [e0]
    simp only [List.zipWith_cons_cons, List.zipWith_nil_right, List.sum_cons, List.sum_nil]
    field_simp
    ring
  rw [e0, mul_zero, sub_zero] at c
  rw [b, c, e1]
  congr 1
  simp [meanOf]
  ring

/-- **C123**: two levels are matched exactly (unless that needs a scale below the smallest allowed). -/
theorem match_two (F : ShiftFam) (hF : F.Ok) (o o1 : Obj) (ho : construct F.family F.given = .ok o)
    (ppf : List (Option ℝ) → ℝ → ℝ) (hppf : Inverts F ppf) (p1 p2 t1 t2 : ℝ) (h0 : 0 < p1) (hp : p1 < p2) (h1 : p2 < 1)
    (hmin : eps ≤ (t2 - t1) / (ppf (F.values 0 1) p2 - ppf (F.values 0 1) p1))
    (opt : Optimiser) (G : List ℝ → Except Err (List ℝ))
    (hG : IsObjective F.family o.names o.attr
      (fun l => [(List.zipWith (fun q t => (ppf l q - t) ^ 2) [p1, p2] [t1, t2]).sum]) G)
    (hfind : Finds opt G (startAt o o1) (freeBounds o F.box)) :
    Gives (optimizeQuantiles opt F.family ppf [p1, p2] [t1, t2] o.names F.box (getFixedParams o).1 (getFixedParams o).2 o1)
      fun r => ∃ m s, law F.family r.2 = F.values m s ∧ 0 < s ∧ (ofPdf (F.pdf m s)).real (Set.Iic t1) = p1 ∧
        (ofPdf (F.pdf m s)).real (Set.Iic t2) = p2 := by
  obtain ⟨r, hr, m, s, a, b, c⟩ := match_line F hF o o1 ho ppf hppf [p1, p2] [t1, t2] rfl
    (by intro q hq; simp only [List.mem_cons, List.not_mem_nil, or_false] at hq; rcases hq with rfl | rfl <;>
          constructor <;> linarith)
    ⟨p1, by simp, p2, by simp, hp⟩ opt G hG hfind
  have i1 := hppf 0 1 one_pos p1 h0 (hp.trans h1)
  have i2 := hppf 0 1 one_pos p2 (h0.trans hp) h1
  have hlt := (quantile_lt F hF i1 i2).2 hp
  simp only [List.map_cons, List.map_nil] at b c
  generalize ppf (F.values 0 1) p1 = z1 at *
  generalize ppf (F.values 0 1) p2 = z2 at *
  have hd : z2 - z1 ≠ 0 := (sub_pos.2 hlt).ne'
  have e1 : lineSlope [z1, z2] [t1, t2] = (t2 - t1) / (z2 - z1) := by
    unfold lineSlope spread meanOf
    simp only [List.zipWith_cons_cons, List.zipWith_nil_right, List.sum_cons, List.sum_nil, List.length_cons, List.length_nil]
    push_cast
    have hn : (z1 - (z1 + (z2 + 0)) / 2) * (z1 - (z1 + (z2 + 0)) / 2) +
        ((z2 - (z1 + (z2 + 0)) / 2) * (z2 - (z1 + (z2 + 0)) / 2) + 0) = (z2 - z1) ^ 2 / 2 := by ring
    rw [hn, div_eq_div_iff (by positivity) hd]
    ring
  rw [e1, max_eq_right hmin] at b
  have hs : 0 < s := by rw [b]; exact eps_above.trans_le hmin
  have hsz : s * (z2 - z1) = t2 - t1 := by rw [b]; field_simp
  have hm : m = (t1 + t2) / 2 - s * ((z1 + z2) / 2) := by rw [c]; simp [meanOf]
  refine ⟨r, hr, m, s, a, hs, (quantile_iff F hF m hs i1).2 ?_, (quantile_iff F hF m hs i2).2 ?_⟩
  · rw [hm]; linarith
  · rw [hm]; linarith

/-- **C123**: the slope is positive whenever the targets grow with the level (as quantiles do) and are not all equal. -/
theorem line_increasing (z t : List ℝ) (h : z.length = t.length)
    (hmono : ∀ p ∈ z.zip t, ∀ q ∈ z.zip t, p.1 < q.1 → p.2 ≤ q.2)
    (hfun : ∀ p ∈ z.zip t, ∀ q ∈ z.zip t, p.1 = q.1 → p.2 = q.2)
    (hne : ∃ p ∈ z.zip t, ∃ q ∈ z.zip t, p.2 < q.2) : 0 < lineSlope z t := by
  have key : ∀ p ∈ z.zip t, ∀ q ∈ z.zip t, 0 ≤ (p.1 - q.1) * (p.2 - q.2) := by
    intro p hp q hq
    rcases lt_trichotomy p.1 q.1 with h' | h' | h'
    · have := hmono p hp q hq h'
      exact mul_nonneg_of_nonpos_of_nonpos (by linarith) (by linarith)
    · rw [h', sub_self, zero_mul]
    · have := hmono q hq p hp h'
      exact mul_nonneg (by linarith) (by linarith)
  obtain ⟨p, hp, q, hq, hlt⟩ := hne
  have hz : p.1 < q.1 := by
    by_contra hc
    rcases (not_lt.1 hc).lt_or_eq with h' | h'
    · have := hmono q hq p hp h'
      linarith
    · have := hfun q hq p hp h'
      linarith
  rw [← zip_slope h]
  exact div_pos (szt_pos _ key p q hp hq (mul_pos_of_neg_of_neg (by linarith) (by linarith)))
    (szz_pos _ p q hp hq hz.ne)

/-- **C123**: changing the units of the targets changes the answer by the same units. -/
theorem match_units (F : ShiftFam) (hF : F.Ok) (o o1 : Obj) (ho : construct F.family F.given = .ok o)
    (ppf : List (Option ℝ) → ℝ → ℝ) (hppf : Inverts F ppf) (qs target : List ℝ) (hlen : qs.length = target.length)
    (hq : ∀ q ∈ qs, 0 < q ∧ q < 1) (htwo : ∃ p ∈ qs, ∃ q ∈ qs, p < q) (a b m s : ℝ) (hs : eps < s) (hbs : eps ≤ b * s)
    (opt opt' : Optimiser) (G G' : List ℝ → Except Err (List ℝ))
    (hG : IsObjective F.family o.names o.attr
      (fun l => [(List.zipWith (fun q t => (ppf l q - t) ^ 2) qs target).sum]) G)
    (hfind : Finds opt G (startAt o o1) (freeBounds o F.box))
    (hG' : IsObjective F.family o.names o.attr
      (fun l => [(List.zipWith (fun q t => (ppf l q - t) ^ 2) qs (target.map fun t => a + b * t)).sum]) G')
    (hfind' : Finds opt' G' (startAt o o1) (freeBounds o F.box)) (x : List ℝ) (o2 : Obj)
    (hr : optimizeQuantiles opt F.family ppf qs target o.names F.box (getFixedParams o).1 (getFixedParams o).2 o1 = .ok (x, o2))
    (hl : law F.family o2 = F.values m s) :
    Gives (optimizeQuantiles opt' F.family ppf qs (target.map fun t => a + b * t) o.names F.box (getFixedParams o).1
      (getFixedParams o).2 o1) fun r => law F.family r.2 = F.values (a + b * m) (b * s) := by
  have inj : ∀ m s m' s', F.values m s = F.values m' s' → m = m' ∧ s = s' := by
    intro m s m' s' h
    rcases F with F | _
    · cases F <;> simpa [ShiftFam.values, PeakFam.values] using h
    all_goals simpa [ShiftFam.values] using h
  obtain ⟨r, h0, m1, s1, h1, h2, h3⟩ := match_line F hF o o1 ho ppf hppf qs target hlen hq htwo opt G hG hfind
  rw [hr] at h0
  simp only [Except.ok.injEq] at h0
  subst h0
  obtain ⟨rfl, rfl⟩ := inj _ _ _ _ (hl.symm.trans h1)
  obtain ⟨r', g0, m2, s2, g1, g2, g3⟩ := match_line F hF o o1 ho ppf hppf qs (target.map fun t => a + b * t) (by simpa using hlen)
    hq htwo opt' G' hG' hfind'
  have hne : target ≠ [] := by
    rintro rfl
    obtain ⟨p, hp, -⟩ := htwo
    have := List.length_pos_of_mem hp
    simp only [List.length_nil] at hlen
    omega
  have hsl : s = lineSlope (qs.map (ppf (F.values 0 1))) target := by
    rcases le_total (lineSlope (qs.map (ppf (F.values 0 1))) target) eps with h | h
    · rw [max_eq_left h] at h2; linarith
    · rw [max_eq_right h] at h2; exact h2
  refine ⟨r', g0, g1.trans ?_⟩
  rw [lineSlope_affine _ _ hne, ← hsl, max_eq_right hbs] at g2
  rw [meanOf_affine _ hne, g2] at g3
  rw [g2, g3, h3]
  congr 1
  ring

/-! ### A scale only -/

/-- what `ppf` promises on the half line -/
def HalfInverts (F : HalfFam) (ppf : List (Option ℝ) → ℝ → ℝ) : Prop :=
  ∀ v, 0 < v → ∀ q, 0 < q → q < 1 → 0 ≤ ppf (F.values v) q ∧
    (ofPdf (F.pdf (F.scale v))).real (Set.Iic (ppf (F.values v) q)) = q

/-- **C123**: for the families on the half line the scale is the slope of the least-squares line through the origin (if the
parameter for it is allowed): large quantiles weigh more than small ones. -/
theorem match_half (F : HalfFam) (hF : F.Ok) (o o1 : Obj) (ho : construct F.family F.given = .ok o)
    (ppf : List (Option ℝ) → ℝ → ℝ) (hppf : HalfInverts F ppf) (qs target : List ℝ) (hlen : qs.length = target.length)
    (hq : ∀ q ∈ qs, 0 < q ∧ q < 1) (v0 : ℝ) (hv0 : eps ≤ v0)
    (hopt : F.scale v0 = lineSlope0 (qs.map (ppf (F.values 1))) target)
    (opt : Optimiser) (G : List ℝ → Except Err (List ℝ))
    (hG : IsObjective F.family o.names o.attr
      (fun l => [(List.zipWith (fun q t => (ppf l q - t) ^ 2) qs target).sum]) G)
    (hfind : Finds opt G (startAt o o1) (freeBounds o F.box)) :
    Gives (optimizeQuantiles opt F.family ppf qs target o.names F.box (getFixedParams o).1 (getFixedParams o).2 o1) fun r =>
      law F.family r.2 = F.values v0 := by
  have hsc : ScaledNames F.family o.names := by
    intro h; cases F <;> simp [HalfFam.family] at h
  have hpos : ∀ v, eps ≤ v → 0 < F.scale v := by
    intro v hv
    have := eps_above.trans_le hv
    cases F <;> simp only [HalfFam.scale] <;> positivity
  have h1 : F.scale 1 = 1 := by cases F <;> simp [HalfFam.scale]
  obtain ⟨x, o', e1, e2, ⟨kvs, d, e3, e4, e5, -⟩, e6⟩ := fit_best opt F.family o o1 hsc F.box _ G hG hfind
  obtain ⟨v, rfl, e7⟩ := half_filled F o d ho x kvs e3 e4
  rw [half_free F o ho, half_in] at e2
  refine ⟨(_, o'), e1, (e5.trans e7).trans ?_⟩
  set zs := qs.map (ppf (F.values 1)) with hzs
  have hl : zs.length = target.length := by rw [hzs, List.length_map, hlen]
  have hsum : ∀ v, eps ≤ v → (List.zipWith (fun q t => (ppf (F.values v) q - t) ^ 2) qs target).sum =
      tot (zs.zip target) fun p => (F.scale v * p.1 - p.2) ^ 2 := by
    intro v hv
    rw [← zip_tot hl fun a b => (F.scale v * a - b) ^ 2, hzs, List.zipWith_map_left]
    congr 1
    refine List.ext_getElem (by simp) fun i h1' h2 => ?_
    simp only [List.length_zipWith, lt_min_iff] at h1'
    simp only [List.getElem_zipWith]
    obtain ⟨a, b⟩ := hq _ (List.getElem_mem h1'.1)
    obtain ⟨c1, c2⟩ := hppf v (eps_above.trans_le hv) _ a b
    obtain ⟨c3, c4⟩ := hppf 1 one_pos _ a b
    rw [h1] at c4
    rw [quantile_half F hF (hpos v hv) c1 c3 c2 c4]
  rw [← zip_slope0 hl] at hopt
  have hz : 0 < tot (zs.zip target) fun p => p.1 ^ 2 := by
    refine lt_of_le_of_ne (tot_nonneg _ _ fun p _ => sq_nonneg _) fun h => ?_
    rw [← h, div_zero] at hopt
    exact (hpos v0 hv0).ne' hopt
  obtain ⟨d', hd', hl'⟩ := half_choice F o ho v0 hv0
  have := e6 d' hd'
  rw [e5, e7, hl'] at this
  simp only [cost, List.map_cons, List.map_nil, List.sum_cons, List.sum_nil, add_zero] at this
  rw [hsum _ e2, hsum _ hv0] at this
  have h2 := (pow_le_pow_iff_left₀ (tot_nonneg _ _ fun p _ => sq_nonneg _) (tot_nonneg _ _ fun p _ => sq_nonneg _)
    two_ne_zero).1 this
  rw [hopt] at h2
  have hs := (line0_least _ hz _ h2).trans hopt.symm
  have : v = v0 := by
    cases F <;> simp only [HalfFam.scale] at hs
    · rw [one_div, one_div, inv_inj] at hs; exact hs
    all_goals exact hs
  rw [this]

/-! The hypotheses are met. -/

/-- `match_quantiles` for a Laplace with targets that are not symmetric: the best line is found, and misses the targets -/
example : ∃ (o : Obj) (z : ℝ) (ppf : List (Option ℝ) → ℝ → ℝ) (opt : Optimiser) (G : List ℝ → Except Err (List ℝ)),
    0 < z ∧ construct (.simple .laplace) PeakFam.laplace.given = .ok o ∧ Inverts (.peak .laplace) ppf ∧
    IsObjective (.simple .laplace) o.names o.attr
      (fun l => [(List.zipWith (fun q t => (ppf l q - t) ^ 2) [1 / 4, 1 / 2, 3 / 4] [-z, 0, 4 * z]).sum]) G ∧
    Finds opt G (startAt o o) (freeBounds o PeakFam.laplace.box) ∧
    (z, 5 / 2) = ((-z + 0 + 4 * z) / 3, max eps ((4 * z - -z) / (2 * z))) := by
  have hF : PeakFam.laplace.Ok := trivial
  have hg := Verif.LocScale.peak_fam PeakFam.laplace hF
  have hex : ∀ q : ℝ, ∃ x, 0 < q → q < 1 → Verif.LocScale.upTo (PeakFam.laplace.pdf 0 1) x = q := by
    intro q
    by_cases h : 0 < q ∧ q < 1
    · obtain ⟨x, hx⟩ := Verif.LocScale.upTo_exists hg h.1 h.2
      exact ⟨x, fun _ _ => hx⟩
    · exact ⟨0, fun a b => absurd ⟨a, b⟩ h⟩
  choose zq hzq using hex
  have inj := (Verif.LocScale.upTo_mono hg).injective
  have h2 : zq (1 / 2) = 0 := inj (by rw [hzq _ (by norm_num) (by norm_num), Verif.LocScale.upTo_zero hg])
  have h1 : zq (1 / 4) = -zq (3 / 4) := inj (by
    rw [Verif.LocScale.upTo_neg hg, hzq _ (by norm_num) (by norm_num), hzq _ (by norm_num) (by norm_num)]; norm_num)
  have h3 : 0 < zq (3 / 4) := by
    rw [← (Verif.LocScale.upTo_mono hg).lt_iff_lt, Verif.LocScale.upTo_zero hg, hzq _ (by norm_num) (by norm_num)]
    norm_num
  obtain ⟨o, ho⟩ : ∃ o, construct (.simple .laplace) PeakFam.laplace.given = .ok o := ⟨_, rfl⟩
  have hbox := peak_free .laplace o ho
  set z := zq (3 / 4) with hz
  set ppf : List (Option ℝ) → ℝ → ℝ := fun l q => (l[0]?.join).getD 0 + (l[1]?.join).getD 0 * zq q with hppf
  set res : List (Option ℝ) → List ℝ := fun l =>
    [(List.zipWith (fun q t => (ppf l q - t) ^ 2) [1 / 4, 1 / 2, 3 / 4] [-z, 0, 4 * z]).sum] with hres
  set G : List ℝ → Except Err (List ℝ) := fun x => if x.length = 2 then
    .ok (res (x.map some)) else .error .valueError with hG
  have hmax : (z, (5 / 2 : ℝ)) = ((-z + 0 + 4 * z) / 3, max eps ((4 * z - -z) / (2 * z))) := by
    have e : (4 * z - -z) / (2 * z) = 5 / 2 := by field_simp; ring
    rw [e, max_eq_right (by unfold eps; norm_num)]
    congr 1
    ring
  refine ⟨o, z, ppf, fun _ _ => .ok (.ask [5, 5] fun _ => .stop [z, 5 / 2]), G, h3, ho, ?_, ⟨?_, ?_⟩, ?_, hmax⟩
  · intro m s hs q a b
    rw [cdf_member (.peak .laplace) hF m hs]
    simp only [hppf, ShiftFam.values, PeakFam.values, List.getElem?_cons_zero, List.getElem?_cons_succ, Option.join_some,
      Option.getD_some]
    rw [add_sub_cancel_left, mul_div_cancel_left₀ _ hs.ne']
    exact hzq q a b
  · intro cand kvs hk
    simp [construct, PeakFam.given, parametrize, simpleParam, simpleFam, allNotNone, blank, Obj.setAll, Obj.set] at ho
    subst ho
    obtain ⟨k1, k2, k3⟩ := hk
    match kvs, k1, k2, k3 with
    | [(a, m), (b, s)], k1, k2, k3 =>
      simp only [List.map_cons, List.map_nil, List.cons.injEq, and_true] at k1
      obtain ⟨rfl, rfl⟩ := k1
      simp [Function.update] at k3
      subst k3
      simp [hG, construct, parametrize, simpleParam, simpleFam, simpleUpdate, allNotNone, blank, Obj.setAll, Obj.set,
        List.lookup, Except.map, law, lawAttrs, Function.update, hres]
  · intro cand hc
    simp [construct, PeakFam.given, parametrize, simpleParam, simpleFam, allNotNone, blank, Obj.setAll, Obj.set] at ho
    subst ho
    simp [Function.update] at hc
    simp [hG, hc]
  · change Finds _ _ _ (freeBounds o PeakFam.laplace.box)
    rw [hbox]
    have hval : ∀ m s : ℝ, res [some m, some s] = [(m - s * z + z) ^ 2 + m ^ 2 + (m + s * z - 4 * z) ^ 2] := by
      intro m s
      simp only [hres, hppf, List.getElem?_cons_zero, List.getElem?_cons_succ, Option.join_some, Option.getD_some,
        List.zipWith_cons_cons, List.zipWith_nil_right, List.sum_cons, List.sum_nil, h1, h2]
      congr 1
      rw [← hz]
      ring
    refine ⟨_, rfl, [z, 5 / 2], res [some z, some (5 / 2)], by simp [answer, hG], (loc_scale_in _ _).2 (by unfold eps; norm_num), ?_, ?_⟩
    · simp [hG]
    · intro y _ r' hr
      by_cases hy : y.length = 2
      · match y, hy with
        | [m, s], _ =>
          simp only [hG, List.length_cons, List.length_nil, List.map_cons, List.map_nil, hval, zero_add, one_add_one_eq_two,
            if_true, Except.ok.injEq] at hr
          rw [← hr, hval]
          simp only [cost, List.map_cons, List.map_nil, List.sum_cons, List.sum_nil, add_zero]
          refine pow_le_pow_left₀ (by positivity) ?_ 2
          nlinarith [sq_nonneg (m - z), sq_nonneg (z * (s - 5 / 2))]
      · simp [hG, hy] at hr

/-- `match_quantiles` for an Exponential with two targets, neither of which is met: the median 2 log 2 of the distribution with
scale 2 and the level 3/4 at 7 log 2, where the distribution with scale 7/2 has it; the scale returned is 16/5 -/
example : ∃ (o : Obj) (ppf : List (Option ℝ) → ℝ → ℝ) (opt : Optimiser) (G : List ℝ → Except Err (List ℝ)),
    construct .exponential HalfFam.exponential.given = .ok o ∧ HalfInverts .exponential ppf ∧
    HalfFam.exponential.scale (5 / 16) =
      lineSlope0 ([1 / 2, 3 / 4].map (ppf (HalfFam.exponential.values 1))) [2 * Real.log 2, 7 * Real.log 2] ∧
    IsObjective .exponential o.names o.attr
      (fun l => [(List.zipWith (fun q t => (ppf l q - t) ^ 2) [1 / 2, 3 / 4] [2 * Real.log 2, 7 * Real.log 2]).sum]) G ∧
    Finds opt G (startAt o o) (freeBounds o HalfFam.exponential.box) := by
  obtain ⟨o, ho⟩ : ∃ o, construct .exponential HalfFam.exponential.given = .ok o := ⟨_, rfl⟩
  have hbox := half_free .exponential o ho
  set ppf : List (Option ℝ) → ℝ → ℝ := fun l q => -Real.log (1 - q) / (l[0]?.join).getD 0 with hppf
  have l2 : 0 < Real.log 2 := Real.log_pos (by norm_num)
  have e1 : ∀ v, ppf [some v] (1 / 2) = Real.log 2 / v := by
    intro v
    have : (1 - 1 / 2 : ℝ) = 2⁻¹ := by norm_num
    simp only [hppf, List.getElem?_cons_zero, Option.join_some, Option.getD_some]
    rw [this, Real.log_inv, neg_neg]
  have e2 : ∀ v, ppf [some v] (3 / 4) = 2 * Real.log 2 / v := by
    intro v
    have : (1 - 3 / 4 : ℝ) = (2 ^ 2)⁻¹ := by norm_num
    simp only [hppf, List.getElem?_cons_zero, Option.join_some, Option.getD_some]
    rw [this, Real.log_inv, neg_neg, Real.log_pow]
    push_cast; ring
  set res : List (Option ℝ) → List ℝ := fun l =>
    [(List.zipWith (fun q t => (ppf l q - t) ^ 2) [1 / 2, 3 / 4] [2 * Real.log 2, 7 * Real.log 2]).sum] with hres
  set G : List ℝ → Except Err (List ℝ) := fun x => if x.length = 1 then
    .ok (res (x.map some)) else .error .valueError with hG
  refine ⟨o, ppf, fun _ _ => .ok (.ask [5] fun _ => .stop [5 / 16]), G, ho, ?_, ?_, ⟨?_, ?_⟩, ?_⟩
  · intro v hv q a b
    have hx : 0 ≤ -Real.log (1 - q) := by
      have := Real.log_neg (by linarith : 0 < 1 - q) (by linarith)
      linarith
    have hp : 0 ≤ ppf (HalfFam.exponential.values v) q := div_nonneg hx hv.le
    refine ⟨hp, ?_⟩
    have hs : 0 < HalfFam.exponential.scale v := by simp only [HalfFam.scale]; positivity
    rw [Verif.HalfScale.half_folded .exponential trivial hs,
      Verif.HalfScale.cdf_folded (Verif.HalfScale.unfolded_peak .exponential trivial) hs hp]
    have e : ppf (HalfFam.exponential.values v) q / HalfFam.exponential.scale v = -Real.log (1 - q) := by
      change -Real.log (1 - q) / v / (1 / v) = _
      field_simp
    rw [e]
    change Verif.LocScale.around (laplacePdf 0 1) 0 _ = q
    rw [Verif.HalfScale.around_laplace hx, neg_neg, Real.exp_log (by linarith)]
    ring
  · simp only [List.map_cons, List.map_nil, HalfFam.values, HalfFam.scale, e1, e2, lineSlope0, List.zipWith_cons_cons,
      List.zipWith_nil_right, List.sum_cons, List.sum_nil]
    field_simp
    norm_num
    ring
  · intro cand kvs hk
    simp [construct, HalfFam.given, parametrize, exponentialParam, allNotNone, blank, Obj.setAll, Obj.set, Except.ok_bind',
      Except.pure_eq] at ho
    subst ho
    obtain ⟨k1, k2, k3⟩ := hk
    match kvs, k1, k2, k3 with
    | [(a, v)], k1, k2, k3 =>
      simp only [List.map_cons, List.map_nil, List.cons.injEq, and_true] at k1
      subst k1
      simp [Function.update] at k3
      subst k3
      simp [hG, construct, parametrize, exponentialParam, exponentialUpdate, allNotNone, blank, Obj.setAll, Obj.set,
        List.lookup, Except.map, law, lawAttrs, Function.update, hres, Except.ok_bind', Except.pure_eq]
  · intro cand hc
    simp [construct, HalfFam.given, parametrize, exponentialParam, allNotNone, blank, Obj.setAll, Obj.set, Except.ok_bind',
      Except.pure_eq] at ho
    subst ho
    simp [Function.update] at hc
    simp [hG, hc]
  · rw [hbox]
    have hval : ∀ v : ℝ, res [some v] = [Real.log 2 ^ 2 * (5 * (1 / v - 16 / 5) ^ 2 + 9 / 5)] := by
      intro v
      simp only [hres, List.zipWith_cons_cons, List.zipWith_nil_right, List.sum_cons, List.sum_nil, e1, e2]
      congr 1
      ring
    refine ⟨_, rfl, [5 / 16], res [some (5 / 16)], by simp [answer, hG], (half_in _).2 (by unfold eps; norm_num), by simp [hG], ?_⟩
    intro y _ r' hr
    by_cases hy : y.length = 1
    · match y, hy with
      | [v], _ =>
        simp only [hG, List.length_cons, List.length_nil, List.map_cons, List.map_nil, hval, zero_add,
          if_true, Except.ok.injEq] at hr
        rw [← hr, hval]
        simp only [cost, List.map_cons, List.map_nil, List.sum_cons, List.sum_nil, add_zero]
        refine pow_le_pow_left₀ (by positivity) ?_ 2
        refine mul_le_mul_of_nonneg_left ?_ (sq_nonneg _)
        have := sq_nonneg (1 / v - 16 / 5)
        norm_num at this ⊢
        linarith
    · simp [hG, hy] at hr

/-- targets that grow with the level -/
example : 0 < lineSlope [-1, 0, 1] [0, 1, 5] :=
  line_increasing _ _ rfl (by
    intro p hp q hq h
    simp only [List.zip_cons_cons, List.zip_nil_right, List.mem_cons, List.not_mem_nil, or_false] at hp hq
    rcases hp with rfl | rfl | rfl <;> rcases hq with rfl | rfl | rfl <;> first | (norm_num at h; done) | norm_num) (by
    intro p hp q hq h
    simp only [List.zip_cons_cons, List.zip_nil_right, List.mem_cons, List.not_mem_nil, or_false] at hp hq
    rcases hp with rfl | rfl | rfl <;> rcases hq with rfl | rfl | rfl <;> first | (norm_num at h; done) | norm_num)
    ⟨(-1, 0), by simp, (0, 1), by simp, by norm_num⟩

end Verif.Props
