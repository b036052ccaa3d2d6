import Verif.Lemmas.DiscreteWide
import Verif.Lemmas.LawDiscrete
import Verif.Props.HalfScale

/-!
# maxent for DiscreteUniform (C127)
-/

namespace Verif.Props
open MeasureTheory Verif Verif.Param Verif.Optim Verif.NumFit Verif.Modifier Verif.Spec Verif.DiscreteWide

/-! ### Which masses a range of integers can have -/

/-- the overlap of two ranges as a number -/
private theorem overlap (a b l u : ℤ) :
    ((Finset.Icc a b ∩ Finset.Icc l u).card : ℤ) = max (min b u - max a l + 1) 0 := by
  have : Finset.Icc a b ∩ Finset.Icc l u = Finset.Icc (max a l) (min b u) := by
    ext k; simp only [Finset.mem_inter, Finset.mem_Icc, max_le_iff, le_min_iff]; tauto
  rw [this, Int.card_Icc]
  omega

/-- mass and number of values, as natural numbers -/
private theorem du_counts {a b : ℤ} (h : a ≤ b) (l u : ℤ) (hlu : l ≤ u) :
    ∃ m N : ℕ, 0 < N ∧ m ≤ N ∧ (m : ℤ) ≤ u - l + 1 ∧ (N : ℤ) = b - a + 1 ∧ (N : ℝ) = (b : ℝ) - a + 1 ∧
      intMass (discreteUniformPmf a b) l u = (m : ℝ) / N := by
  obtain ⟨N, hN⟩ : ∃ N : ℕ, (N : ℤ) = b - a + 1 := ⟨(b - a + 1).toNat, by omega⟩
  have hN' : (N : ℝ) = (b : ℝ) - a + 1 := by
    have : ((N : ℤ) : ℝ) = ((b - a + 1 : ℤ) : ℝ) := by rw [hN]
    push_cast at this; exact this
  have ho := overlap a b l u
  refine ⟨(Finset.Icc a b ∩ Finset.Icc l u).card, N, by omega, by omega, by omega, hN, hN', ?_⟩
  rw [du_mass h, hN']

/-- **C127**: the mass of the integers from `l` to `u` is the number of values they share with the distribution, divided by the
number of its values. -/
theorem discrete_uniform_mass (a b l u : ℤ) (h : a ≤ b) :
    intMass (discreteUniformPmf a b) l u = max ((min b u : ℤ) - (max a l : ℤ) + 1 : ℝ) 0 / (b - a + 1) := by
  rw [du_mass h]
  have : (((Finset.Icc a b ∩ Finset.Icc l u).card : ℤ) : ℝ) = ((max (min b u - max a l + 1) 0 : ℤ) : ℝ) := by rw [overlap]
  push_cast at this
  rw [this]
  push_cast
  rfl

/-- **C127**: the entropy is the logarithm of the number of values. -/
theorem discrete_uniform_entropy (a b : ℤ) (h : a ≤ b) :
    entropyZ (discreteUniformPmf a b) = Real.log (b - a + 1) := du_entropy h

private theorem cross {c d m N : ℕ} (hd : 0 < d) (hN : 0 < N) (h : (m : ℝ) / N = (c : ℝ) / d) : m * d = c * N := by
  have hd' : (d : ℝ) ≠ 0 := by exact_mod_cast hd.ne'
  have hN' : (N : ℝ) ≠ 0 := by exact_mod_cast hN.ne'
  rw [div_eq_div_iff hN' hd'] at h
  exact_mod_cast h

/-- a multiple of a fraction in lowest terms -/
private theorem lowest {c d m N : ℕ} (hc : 0 < c) (hcop : Nat.Coprime c d) (h : m * d = c * N) :
    ∃ j, m = c * j ∧ N = d * j := by
  have h1 : c ∣ m := hcop.dvd_of_dvd_mul_right ⟨N, h⟩
  obtain ⟨j, rfl⟩ := h1
  exact ⟨j, rfl, (Nat.eq_of_mul_eq_mul_left hc (by rw [← h]; ring)).symm⟩

/-- a distribution with a given overlap and number of values -/
private theorem place (l u : ℤ) (hlu : l ≤ u) (m N : ℕ) (hm : 0 < m) (hmN : m ≤ N) (hmu : (m : ℤ) ≤ u - l + 1) :
    ∃ a b : ℤ, a ≤ b ∧ b - a + 1 = N ∧ intMass (discreteUniformPmf a b) l u = (m : ℝ) / N := by
  refine ⟨u - m + 1, u - m + N, by omega, by ring, ?_⟩
  have h : u - m + 1 ≤ u - m + N := by omega
  rw [du_mass h]
  have ho := overlap (u - m + 1) (u - m + N) l u
  have : ((Finset.Icc (u - m + 1) (u - m + N) ∩ Finset.Icc l u).card) = m := by omega
  rw [this]
  push_cast
  congr 1
  ring

/-- **C127**: a mass other than a quotient of whole numbers is out of reach. -/
theorem discrete_uniform_rational (a b l u : ℤ) (h : a ≤ b) : ∃ q : ℚ, intMass (discreteUniformPmf a b) l u = q := by
  refine ⟨((Finset.Icc a b ∩ Finset.Icc l u).card : ℚ) / (b - a + 1), ?_⟩
  rw [du_mass h]
  push_cast
  rfl

/-- **C127**: the mass `c / d` (in lowest terms) is attained exactly if `[l, u]` has at least `c` integers. -/
theorem discrete_uniform_attained (l u : ℤ) (hlu : l ≤ u) (c d : ℕ) (hc : 0 < c) (hcd : c ≤ d) (hcop : Nat.Coprime c d) :
    (∃ a b : ℤ, a ≤ b ∧ intMass (discreteUniformPmf a b) l u = (c : ℝ) / d) ↔ (c : ℤ) ≤ u - l + 1 := by
  constructor
  · rintro ⟨a, b, h, e⟩
    obtain ⟨m, N, hN, -, h2, -, -, hm⟩ := du_counts h l u hlu
    rw [hm] at e
    obtain ⟨j, rfl, rfl⟩ := lowest hc hcop (cross (hc.trans_le hcd) hN e)
    have hj : 0 < j := Nat.pos_of_mul_pos_left hN
    have : c ≤ c * j := Nat.le_mul_of_pos_right _ hj
    omega
  · intro h
    obtain ⟨a, b, h1, -, h2⟩ := place l u hlu c d hc hcd h
    exact ⟨a, b, h1, h2⟩

/-- **C127**: of the distributions with the mass `c / d`, those with the largest entropy have `d * (n / c)` values (whole-number
division), `n` being the number of integers of `[l, u]`. -/
theorem discrete_uniform_best (l u : ℤ) (n c d : ℕ) (hn : (n : ℤ) = u - l + 1) (hc : 0 < c) (hcd : c ≤ d)
    (hcop : Nat.Coprime c d) (hcn : c ≤ n) (a b : ℤ) (h : a ≤ b) (hm : intMass (discreteUniformPmf a b) l u = (c : ℝ) / d) :
    b - a + 1 ≤ d * (n / c : ℕ) ∧
    ((∀ a' b' : ℤ, a' ≤ b' → intMass (discreteUniformPmf a' b') l u = (c : ℝ) / d →
        entropyZ (discreteUniformPmf a' b') ≤ entropyZ (discreteUniformPmf a b)) ↔ b - a + 1 = d * (n / c : ℕ)) := by
  have hlu : l ≤ u := by omega
  have hd : 0 < d := hc.trans_le hcd
  have key : ∀ a b : ℤ, a ≤ b → intMass (discreteUniformPmf a b) l u = (c : ℝ) / d → b - a + 1 ≤ d * (n / c : ℕ) := by
    intro a b h hm
    obtain ⟨m, N, hN, -, h2, h3, -, e⟩ := du_counts h l u hlu
    rw [e] at hm
    obtain ⟨j, rfl, rfl⟩ := lowest hc hcop (cross hd hN hm)
    have hj : j ≤ n / c := (Nat.le_div_iff_mul_le hc).2 (by rw [mul_comm]; zify; push_cast at h2; omega)
    rw [← h3]
    exact_mod_cast Nat.mul_le_mul_left d hj
  have hent : ∀ a b a' b' : ℤ, a ≤ b → a' ≤ b' →
      (entropyZ (discreteUniformPmf a' b') ≤ entropyZ (discreteUniformPmf a b) ↔ b' - a' + 1 ≤ b - a + 1) := by
    intro a b a' b' h h'
    rw [du_entropy h, du_entropy h', Real.log_le_log_iff (size_pos h') (size_pos h)]
    exact_mod_cast Iff.rfl
  refine ⟨key a b h hm, fun hall => le_antisymm (key a b h hm) ?_, fun he a' b' h' hm' => ?_⟩
  · have hk : 1 ≤ n / c := (Nat.le_div_iff_mul_le hc).2 (by omega)
    have hcc : c * (n / c) ≤ n := Nat.mul_div_le n c
    obtain ⟨a', b', h', hs, hm'⟩ := place l u hlu (c * (n / c)) (d * (n / c)) (by positivity)
      (Nat.mul_le_mul_right _ hcd) (by omega)
    have hk' : ((n / c : ℕ) : ℝ) ≠ 0 := by exact_mod_cast (by omega : n / c ≠ 0)
    rw [Nat.cast_mul, Nat.cast_mul, mul_div_mul_right _ _ hk'] at hm'
    have := (hent a b a' b' h h').1 (hall a' b' h' hm')
    rw [hs] at this
    exact_mod_cast this
  · rw [hent a b a' b' h h', he]
    exact key a' b' h' hm'

/-- **C127**: let the mass be a quotient `c / d` in lowest terms with `d` at most 100 (every whole percentage is).  If `[l, u]`
has fewer than `c` integers, no distribution comes within 1e-4 of it. -/
theorem discrete_uniform_gap (l u : ℤ) (hlu : l ≤ u) (c d : ℕ) (hc : 0 < c) (hcd : c ≤ d) (hd : d ≤ 100)
    (hcop : Nat.Coprime c d) (hfew : u - l + 1 < c) (a b : ℤ) (h : a ≤ b) :
    1 / 10000 ≤ |intMass (discreteUniformPmf a b) l u - (c : ℝ) / d| := by
  obtain ⟨m, N, hN, hmN, h2, -, -, e⟩ := du_counts h l u hlu
  rw [e]
  have hd0 : 0 < d := hc.trans_le hcd
  have hmc : m + 1 ≤ c := by omega
  have hNr : (0 : ℝ) < N := by exact_mod_cast hN
  have hdr : (0 : ℝ) < d := by exact_mod_cast hd0
  have hne : (m : ℤ) * d - c * N ≠ 0 := by
    intro h0
    have : m * d = c * N := by zify; linarith
    obtain ⟨j, rfl, rfl⟩ := lowest hc hcop this
    have hj : 0 < j := Nat.pos_of_mul_pos_left hN
    have : c ≤ c * j := Nat.le_mul_of_pos_right _ hj
    omega
  have heq : (m : ℝ) / N - (c : ℝ) / d = (((m : ℤ) * d - c * N : ℤ) : ℝ) / (N * d) := by
    push_cast
    field_simp
  rcases le_or_gt N 100 with hN1 | hN1
  · rw [heq, abs_div, abs_of_pos (by positivity : (0 : ℝ) < N * d), le_div_iff₀ (by positivity)]
    have h1 : (1 : ℝ) ≤ |(((m : ℤ) * d - c * N : ℤ) : ℝ)| := by
      exact_mod_cast Int.one_le_abs hne
    have h3 : (N : ℝ) ≤ 100 := by exact_mod_cast hN1
    have h4 : (d : ℝ) ≤ 100 := by exact_mod_cast hd
    nlinarith
  · rw [abs_sub_comm]
    refine le_trans ?_ (le_abs_self _)
    have h3 : (101 : ℝ) ≤ N := by exact_mod_cast hN1
    have h4 : (d : ℝ) ≤ 100 := by exact_mod_cast hd
    have h5 : (m : ℝ) + 1 ≤ c := by exact_mod_cast hmc
    have hm0 : (0 : ℝ) ≤ m := Nat.cast_nonneg m
    have q1 : (c : ℝ) / 100 ≤ (c : ℝ) / d := div_le_div_of_nonneg_left (by linarith) hdr h4
    have q2 : (m : ℝ) / N ≤ m / 101 := div_le_div_of_nonneg_left hm0 (by norm_num) h3
    linarith

/-! ### maxent -/

private theorem duGood_le {x : List ℝ} (h : duGood x) : (duEnds x).1 ≤ (duEnds x).2 := by
  unfold duGood at h
  split at h
  · exact h
  · exact h.elim

private theorem du_candidate (o : Obj) (ho : construct (.simple .discreteUniform) (fun _ => none) = .ok o) (x : List ℝ)
    (hx : duGood x) (o1 : Obj) :
    ∃ o2, applyCandidate (.simple .discreteUniform) o.names (getFixedParams o).1 (getFixedParams o).2 x o1 = .ok o2 ∧
      law (.simple .discreteUniform) o2 = [some ((duEnds x).1 : ℝ), some ((duEnds x).2 : ℝ)] := by
  unfold duGood at hx
  split at hx
  · simp [construct, parametrize, simpleParam, simpleFam, allNotNone, blank, Obj.setAll, Obj.set,
      Except.ok_bind', Except.pure_eq] at ho
    subst ho
    simp [applyCandidate, getFixedParams, splitStep, getParams, getParamsFrom, Function.update, Except.map, Except.ok_bind',
      parametrize, kwCall, List.lookup, simpleParam, simpleFam, simpleUpdate, allNotNone, Obj.setAll, Obj.set,
      Except.pure_eq, List.zipIdx, law, lawAttrs, duEnds]
  · exact hx.elim

/-- **C127**: maxent for DiscreteUniform() and whole bounds.  Let the runs completed before the first failure end at proper
distributions and report their entropies.  The distribution returned is that of one of the runs, its ends rounded outwards.  If
one of the runs has the mass up to 1e-4, the one returned has, and has the most values of all those; otherwise it is that of the
first run. -/
theorem maxent_discrete_uniform (o : Obj) (ho : construct (.simple .discreteUniform) (fun _ => none) = .ok o)
    (b : List ℝ → Base) (hb : ∀ x, duGood x → (b x).law = ofPmf (duPmf x))
    (l u : ℤ) (p : ℝ) (hlu : l ≤ u)
    (err : List ℝ → Option ℝ) (herr : ∀ x, duGood x → err x = some |probBound (b x) l u p none|)
    (done : List Opt) (rest : List (Except Err Opt)) (hrest : ∀ r, rest.head? = some r → ∃ e, r = .error e)
    (hdone : ∀ r ∈ done, duGood r.x ∧ r.value = some ((-entropyZ (duPmf r.x) : ℝ) : EReal))
    (o1 o2 : Obj) (r : Opt)
    (h : optimizeMaxEnt (.simple .discreteUniform) o.names (getFixedParams o).1 (getFixedParams o).2 err
      (done.map .ok ++ rest) o1 = .ok (r, o2)) :
    r ∈ done ∧ (∃ x y : ℝ, r.x = [x, y] ∧ law (.simple .discreteUniform) o2 = [some (⌊x⌋ : ℝ), some (⌈y⌉ : ℝ)]) ∧
      ((∃ r' ∈ done, |intMass (duPmf r'.x) l u - p| < 1 / 10000) →
        |intMass (duPmf r.x) l u - p| < 1 / 10000 ∧
        ∀ r' ∈ done, |intMass (duPmf r'.x) l u - p| < 1 / 10000 →
          (duEnds r'.x).2 - (duEnds r'.x).1 ≤ (duEnds r.x).2 - (duEnds r.x).1) ∧
      ((∀ r' ∈ done, 1 / 10000 ≤ |intMass (duPmf r'.x) l u - p|) → done.head? = some r) := by
  have herr' : ∀ x, duGood x → err x = some |intMass (duPmf x) l u - p| := by
    intro x hx
    rw [herr x hx, constraint_is_mass _ _ _ _ (by exact_mod_cast hlu) (fun _ => ⟨l, rfl⟩), hb x hx]
    rfl
  have hfe : ∀ r' ∈ done, |intMass (duPmf r'.x) l u - p| < 1 / 10000 →
      Feasible err r' ((-entropyZ (duPmf r'.x) : ℝ) : EReal) := by
    intro r' hr' hlt
    obtain ⟨hg, hv⟩ := hdone r' hr'
    exact ⟨⟨_, herr' _ hg, hlt⟩, hv⟩
  have hef : ∀ r' ∈ done, ∀ w, Feasible err r' w →
      |intMass (duPmf r'.x) l u - p| < 1 / 10000 ∧ w = ((-entropyZ (duPmf r'.x) : ℝ) : EReal) := by
    intro r' hr' w ⟨⟨e, he, hlt⟩, hval⟩
    obtain ⟨hg, hv⟩ := hdone r' hr'
    rw [herr' _ hg] at he
    simp only [Option.some.injEq] at he
    subst he
    rw [hv] at hval
    simp only [Option.some.injEq] at hval
    exact ⟨hlt, hval.symm⟩
  obtain ⟨h1, h2⟩ := maxent_leaves_selected _ _ _ _ _ _ _ _ _ h
  have hlaw : duGood r.x → ∃ x y : ℝ, r.x = [x, y] ∧
      law (.simple .discreteUniform) o2 = [some (⌊x⌋ : ℝ), some (⌈y⌉ : ℝ)] := by
    intro hg
    obtain ⟨o3, ho3, hl⟩ := du_candidate o ho r.x hg o1
    rw [h2] at ho3
    simp only [Except.ok.injEq] at ho3
    subst ho3
    have : ∃ x y, r.x = [x, y] := by
      unfold duGood at hg
      split at hg
      · exact ⟨_, _, by assumption⟩
      · exact hg.elim
    obtain ⟨x, y, hxy⟩ := this
    refine ⟨x, y, hxy, ?_⟩
    rw [hl, hxy]
    rfl
  by_cases hp : ∃ r' ∈ done, |intMass (duPmf r'.x) l u - p| < 1 / 10000
  · obtain ⟨r0, hr0, hlt0⟩ := hp
    obtain ⟨i, r', v, e1, e2, e3, e4, -⟩ := maxent_selects err done rest hrest r0 hr0 _ (hfe r0 hr0 hlt0) (EReal.coe_ne_top _)
    rw [h1] at e1
    simp only [Except.ok.injEq] at e1
    subst e1
    have hrd := List.mem_of_getElem? e2
    obtain ⟨hlt, rfl⟩ := hef r hrd v e3
    refine ⟨hrd, hlaw (hdone r hrd).1, fun _ => ⟨hlt, fun r' hr' hlt' => ?_⟩, fun hall => ?_⟩
    · have hle := e4 r' hr' _ (hfe r' hr' hlt')
      have hg := duGood_le (hdone r hrd).1
      have hg' := duGood_le (hdone r' hr').1
      rw [EReal.coe_le_coe_iff, neg_le_neg_iff, duPmf, duPmf, du_entropy hg, du_entropy hg',
        Real.log_le_log_iff (size_pos hg') (size_pos hg)] at hle
      have : (((duEnds r'.x).2 - (duEnds r'.x).1 : ℤ) : ℝ) ≤ (((duEnds r.x).2 - (duEnds r.x).1 : ℤ) : ℝ) := by
        push_cast; linarith
      exact_mod_cast this
    · exact absurd (hall r hrd) (not_le.2 hlt)
  · push Not at hp
    have hfb := maxent_fallback err done rest hrest (fun r' hr' w hf => absurd (hef r' hr' w hf).1 (not_lt.2 (hp r' hr')))
    rw [h1] at hfb
    cases done with
    | nil => simp at hfb
    | cons r0 rs =>
      simp only [Except.ok.injEq] at hfb
      subst hfb
      refine ⟨by simp, hlaw (hdone r (by simp)).1, fun ⟨r', hr', hlt⟩ => absurd (hp r' hr') (not_le.2 hlt), fun _ => by simp⟩

/-- **C127**: so with a whole percentage as mass (0.89 is the default) and fewer integers than its numerator in lowest terms (89),
maxent returns the distribution of the first run, whatever the runs are. -/
theorem maxent_discrete_uniform_first (o : Obj) (ho : construct (.simple .discreteUniform) (fun _ => none) = .ok o)
    (b : List ℝ → Base) (hb : ∀ x, duGood x → (b x).law = ofPmf (duPmf x))
    (l u : ℤ) (hlu : l ≤ u) (c d : ℕ) (hc : 0 < c) (hcd : c ≤ d) (hd : d ≤ 100)
    (hcop : Nat.Coprime c d) (hfew : u - l + 1 < c)
    (err : List ℝ → Option ℝ) (herr : ∀ x, duGood x → err x = some |probBound (b x) l u ((c : ℝ) / d) none|)
    (done : List Opt) (rest : List (Except Err Opt)) (hrest : ∀ r, rest.head? = some r → ∃ e, r = .error e)
    (hdone : ∀ r ∈ done, duGood r.x ∧ r.value = some ((-entropyZ (duPmf r.x) : ℝ) : EReal))
    (o1 o2 : Obj) (r : Opt)
    (h : optimizeMaxEnt (.simple .discreteUniform) o.names (getFixedParams o).1 (getFixedParams o).2 err
      (done.map .ok ++ rest) o1 = .ok (r, o2)) :
    done.head? = some r ∧ 1 / 10000 ≤ |intMass (duPmf r.x) l u - (c : ℝ) / d| := by
  have gap : ∀ r' ∈ done, 1 / 10000 ≤ |intMass (duPmf r'.x) l u - (c : ℝ) / d| := fun r' hr' =>
    discrete_uniform_gap l u hlu c d hc hcd hd hcop hfew _ _ (duGood_le (hdone r' hr').1)
  obtain ⟨hr, -, -, h3⟩ := maxent_discrete_uniform o ho b hb l u _ hlu err herr done rest hrest hdone o1 o2 r h
  exact ⟨h3 gap, gap r hr⟩

/-! The hypotheses are met. -/

/-- the distributions as discrete bases -/
noncomputable def duBase (x : List ℝ) : Base :=
  open Classical in
  if hx : duGood x then
    haveI : IsProbabilityMeasure (ofPmf (duPmf x)) := (Verif.Law.discreteUniform _ _ (duGood_le hx)).1
    discreteBase (ofPmf (duPmf x)) ⊥ ⊤ (by simp) (by
      have hm : MeasurableSet {x : ℝ | ∃ k : ℤ, x = k} := by
        have : {x : ℝ | ∃ k : ℤ, x = k} = Set.range (fun k : ℤ => (k : ℝ)) := by ext x; simp [eq_comm]
        rw [this]; exact (Set.countable_range _).measurableSet
      rw [ae_iff]
      have e : {a : ℝ | ¬ ∃ k : ℤ, a = k} = {x : ℝ | ∃ k : ℤ, x = k}ᶜ := rfl
      rw [e, ofPmf, Measure.sum_apply _ hm.compl]
      simp)
  else unif 0 1 (by norm_num)

theorem duBase_law (x : List ℝ) (hx : duGood x) : (duBase x).law = ofPmf (duPmf x) := by
  unfold duBase
  rw [dif_pos hx]
  rfl

private theorem sel_some (err : List ℝ → Option ℝ) (done : List Opt) (hne : done ≠ []) (hfin : ∀ r ∈ done, r.value ≠ some ⊤) :
    ∃ r ∈ done, selectOpt err (done.map .ok ++ [.error .valueError]) = .ok r := by
  by_cases hf : ∃ r ∈ done, ∃ v, Feasible err r v
  · obtain ⟨r, hr, v, hv⟩ := hf
    obtain ⟨i, r', v', e1, e2, -⟩ := maxent_selects err done [.error .valueError] (by simp) r hr v hv
      (fun e => hfin r hr (by rw [hv.2, e]))
    exact ⟨r', List.mem_of_getElem? e2, e1⟩
  · push Not at hf
    cases done with
    | nil => exact absurd rfl hne
    | cons r rs => exact ⟨r, by simp, maxent_fallback err (r :: rs) [.error .valueError] (by simp) hf⟩

/-- whatever the interval and the mass, and whatever proper distributions the runs end at, maxent completes -/
private theorem du_runs (l u : ℤ) (p : ℝ) (xs : List (List ℝ)) (hxs : xs ≠ []) (hg : ∀ x ∈ xs, duGood x) (o1 : Obj) :
    ∃ (o o2 : Obj) (r : Opt), construct (.simple .discreteUniform) (fun _ => none) = .ok o ∧
    optimizeMaxEnt (.simple .discreteUniform) o.names (getFixedParams o).1 (getFixedParams o).2
      (fun x => some |probBound (duBase x) l u p none|)
      ((xs.map fun x => (⟨x, some ((-entropyZ (duPmf x) : ℝ) : EReal)⟩ : Opt)).map .ok ++ [.error .valueError]) o1 =
        .ok (r, o2) := by
  obtain ⟨o, ho⟩ : ∃ o, construct (.simple .discreteUniform) (fun _ => none) = .ok o := ⟨_, rfl⟩
  set err : List ℝ → Option ℝ := fun x => some |probBound (duBase x) l u p none|
  set done : List Opt := xs.map fun x => ⟨x, some ((-entropyZ (duPmf x) : ℝ) : EReal)⟩ with hdone
  obtain ⟨r, hr, hsel⟩ := sel_some err done (by simpa [hdone] using hxs) (fun r hr => by
    rw [hdone, List.mem_map] at hr
    obtain ⟨x, -, rfl⟩ := hr
    exact fun h => EReal.coe_ne_top _ (Option.some.inj h))
  have hgr : duGood r.x := by
    rw [hdone, List.mem_map] at hr
    obtain ⟨x, hx, rfl⟩ := hr
    exact hg x hx
  obtain ⟨o2, ho2, -⟩ := du_candidate o ho r.x hgr o1
  refine ⟨o, o2, r, ho, ?_⟩
  unfold optimizeMaxEnt
  rw [hsel]
  simp only [Except.ok_bind']
  rw [ho2]
  rfl

/-- `maxent(DiscreteUniform(), 1, 9, 0.9)` with runs ending at (0.3, 8.7) and (4.2, 8): the distribution returned is that of the
first run, DiscreteUniform(0, 9), which has the mass and the largest entropy possible -/
example (o1 : Obj) : ∃ (o o2 : Obj) (r : Opt), construct (.simple .discreteUniform) (fun _ => none) = .ok o ∧
    optimizeMaxEnt (.simple .discreteUniform) o.names (getFixedParams o).1 (getFixedParams o).2
      (fun x => some |probBound (duBase x) 1 9 (9 / 10) none|)
      (([[0.3, 8.7], [4.2, 8]].map fun x => (⟨x, some ((-entropyZ (duPmf x) : ℝ) : EReal)⟩ : Opt)).map .ok ++
        [.error .valueError]) o1 = .ok (r, o2) ∧
    r.x = [0.3, 8.7] ∧ |intMass (duPmf r.x) 1 9 - 9 / 10| < 1 / 10000 := by
  have hg : ∀ x ∈ ([[0.3, 8.7], [4.2, 8]] : List (List ℝ)), duGood x := by
    intro x hx
    simp only [List.mem_cons, List.not_mem_nil, or_false] at hx
    rcases hx with rfl | rfl <;> unfold duGood <;> norm_num
  have e1 : duEnds [0.3, 8.7] = (0, 9) := by
    have h1 : ⌊(0.3 : ℝ)⌋ = 0 := by rw [Int.floor_eq_iff]; norm_num
    have h2 : ⌈(8.7 : ℝ)⌉ = 9 := by rw [Int.ceil_eq_iff]; norm_num
    simp only [duEnds, h1, h2]
  have e2 : duEnds [4.2, 8] = (4, 8) := by
    have h1 : ⌊(4.2 : ℝ)⌋ = 4 := by rw [Int.floor_eq_iff]; norm_num
    have h2 : ⌈(8 : ℝ)⌉ = 8 := by rw [Int.ceil_eq_iff]; norm_num
    simp only [duEnds, h1, h2]
  have m1 : intMass (duPmf [0.3, 8.7]) 1 9 = 9 / 10 := by
    rw [duPmf, e1, discrete_uniform_mass _ _ _ _ (by norm_num)]; norm_num
  have m2 : intMass (duPmf [4.2, 8]) 1 9 = 1 := by
    rw [duPmf, e2, discrete_uniform_mass _ _ _ _ (by norm_num)]; norm_num
  obtain ⟨o, o2, r, ho, hr⟩ := du_runs 1 9 (9 / 10) _ (by simp) hg o1
  push_cast at hr
  refine ⟨o, o2, r, ho, hr, ?_⟩
  obtain ⟨q1, -, q2, -⟩ := maxent_discrete_uniform o ho duBase duBase_law 1 9 (9 / 10) (by norm_num) _
    (fun x _ => by push_cast; rfl) _ _ (by simp)
    (fun r hr => by
      rw [List.mem_map] at hr
      obtain ⟨x, hx, rfl⟩ := hr
      exact ⟨hg x hx, rfl⟩) o1 o2 r hr
  have hlt := (q2 ⟨_, List.mem_map.2 ⟨[0.3, 8.7], by simp, rfl⟩, by rw [m1]; norm_num⟩).1
  refine ⟨?_, hlt⟩
  simp only [List.map_cons, List.map_nil, List.mem_cons, List.not_mem_nil, or_false] at q1
  rcases q1 with rfl | rfl
  · rfl
  · rw [m2] at hlt
    norm_num [abs_of_pos] at hlt

/-- eighty-nine percent (the default) between 1 and 10: no distribution passes the check -/
example (a b : ℤ) (h : a ≤ b) : 1 / 10000 ≤ |intMass (discreteUniformPmf a b) 1 10 - 89 / 100| := by
  have := discrete_uniform_gap 1 10 (by norm_num) 89 100 (by norm_num) (by norm_num) (by norm_num) (by norm_num) (by norm_num) a b h
  exact_mod_cast this

/-- nine tenths between 1 and 20: the distributions with the largest entropy have 20 values -/
example : intMass (discreteUniformPmf 1 20) 1 18 = 9 / 10 ∧ intMass (discreteUniformPmf 11 20) 1 19 = 9 / 10 ∧
    (∃ a b : ℤ, a ≤ b ∧ intMass (discreteUniformPmf a b) 1 20 = ((9 : ℕ) : ℝ) / (10 : ℕ)) ∧
    intMass (discreteUniformPmf 3 22) 1 20 = 9 / 10 ∧ (22 : ℤ) - 3 + 1 = (10 : ℕ) * (20 / 9 : ℕ) := by
  refine ⟨?_, ?_, (discrete_uniform_attained 1 20 (by norm_num) 9 10 (by norm_num) (by norm_num) (by norm_num)).2 (by norm_num),
    ?_, by norm_num⟩ <;>
  · rw [discrete_uniform_mass _ _ _ _ (by norm_num)]; norm_num

end Verif.Props
